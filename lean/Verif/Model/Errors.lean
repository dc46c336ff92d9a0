import Verif.Model.Parser.Parse

/-!
# What callers see of an error (lib.rs 34–81, ast/mod.rs 2385–2434, tokenizer/structs.rs 216–230, 920–962)
-/

namespace FM

/-- A number as `{}` prints it. -/
def decimal (n : Nat) : Text := (Nat.repr n).toList

/-- `Display for TokenizerErrorType` (tokenizer/structs.rs 216–230). -/
def TokErrType.display : TokErrType → Text
  | .unclosedComment => c!"unclosed comment"
  | .unclosedString => c!"unclosed string"
  | .unexpectedToken ch => c!"unexpected character " ++ [ch]
  | .invalidNumber => c!"invalid number"
  | .invalidSymbol s => c!"invalid symbol " ++ s

/-- `TokenizerError::position` (tokenizer/structs.rs 938–941).  `error` and `range` (932–936, 943–946) are the fields
of `TokErr`. -/
def TokErr.position (e : TokErr) : Position := e.range.1

/-- `Display for TokenizerError` (tokenizer/structs.rs 949–961). -/
def TokErr.display (e : TokErr) : Text :=
  e.error.display ++ c!" (" ++ decimal e.range.1.line ++ c!":" ++ decimal e.range.1.character ++ c!" to " ++
    decimal e.range.2.line ++ c!":" ++ decimal e.range.2.character ++ c!")"

namespace Parser

/-- `AstError::range` (ast/mod.rs 2413–2417) and `TokenizerError::range` (tokenizer/structs.rs 943–946) under
`Error::range` (lib.rs 55–60). -/
def Err.range : Err → Position × Position
  | .ast t _ r => r.getD (t.start, t.stop)
  | .tokenizer e => e.range

/-- `Error::error_message` (lib.rs 47–52) with `AstError::error_message` (ast/mod.rs 2408–2410). -/
def Err.message : Err → Text
  | .ast _ m _ => m.toList
  | .tokenizer e => e.display

/-- `Display for Error` (lib.rs 63–74) with `Display for AstError` (ast/mod.rs 2420–2434). -/
def Err.display : Err → Text
  | .ast t m r =>
    let range := (Err.ast t m r).range
    c!"error occurred while creating ast: unexpected token `" ++ t.display ++ c!"`. (starting from line " ++
      decimal range.1.line ++ c!", character " ++ decimal range.1.character ++ c!" and ending on line " ++
      decimal range.2.line ++ c!", character " ++ decimal range.2.character ++ c!")\nadditional information: " ++ m.toList
  | .tokenizer e => c!"error occurred while tokenizing: " ++ e.display

end Parser
end FM
