import Verif.Model.Ast.Saved
import Verif.Model.Parser.State

/-!
# Storing errors with serde

See Model/Ast/Saved.lean.  A `char` is a string of one character, a pair a sequence of two.
-/

namespace FM

/-- `Serialize for TokenizerErrorType` (tokenizer/structs.rs 201–214). -/
def TokErrType.save : TokErrType → Val
  | .unclosedComment => .str c!"UnclosedComment"
  | .unclosedString => .str c!"UnclosedString"
  | .invalidNumber => .str c!"InvalidNumber"
  | .unexpectedToken ch => .map [(c!"UnexpectedToken", .str [ch])]
  | .invalidSymbol s => .map [(c!"InvalidSymbol", .str s)]

/-- `Deserialize for TokenizerErrorType` (tokenizer/structs.rs 201–214). -/
def TokErrType.load : Val → Option TokErrType
  | .str name =>
    if name = c!"UnclosedComment" then some .unclosedComment
    else if name = c!"UnclosedString" then some .unclosedString
    else if name = c!"InvalidNumber" then some .invalidNumber
    else none
  | .map [(name, .str s)] =>
    if name = c!"UnexpectedToken" then
      match s with
      | [ch] => some (.unexpectedToken ch)
      | _ => none
    else if name = c!"InvalidSymbol" then some (.invalidSymbol s)
    else none
  | _ => none

/-- A pair of positions is stored. -/
def saveRange (r : Position × Position) : Val := .seq [r.1.save, r.2.save]

/-- A pair of positions is read. -/
def loadRange : Val → Option (Position × Position)
  | .seq [a, b] => do return (← Position.load a, ← Position.load b)
  | _ => none

/-- `Serialize for TokenizerError` (tokenizer/structs.rs 921–928). -/
def TokErr.save (e : TokErr) : Val := .map [(c!"error", e.error.save), (c!"range", saveRange e.range)]

/-- `Deserialize for TokenizerError` (tokenizer/structs.rs 921–928). -/
def TokErr.load (v : Val) : Option TokErr := do
  let error ← TokErrType.load (← v.field c!"error")
  let range ← loadRange (← v.field c!"range")
  pure ⟨error, range⟩

namespace Parser

/-- `Serialize for Error` (lib.rs 37–44) with `AstError` (ast/mod.rs 2386–2398). -/
def Err.save : Err → Val
  | .tokenizer e => .map [(c!"TokenizerError", e.save)]
  | .ast t m r => .map [(c!"AstError", .map ([(c!"token", t.save), (c!"additional", .str m.toList)] ++
      match r with
      | none => []
      | some r => [(c!"range", saveRange r)]))]

/-- A field of type `Option` (ast/mod.rs 2397): missing or null is `None`. -/
def loadOptRange : Val → Option (Option (Position × Position))
  | .map m =>
    match Val.under c!"range" m with
    | [] => some none
    | [.null] => some none
    | [v] => (loadRange v).map some
    | _ => none
  | _ => none

/-- `Deserialize for Error` (lib.rs 37–44) with `AstError` (ast/mod.rs 2386–2398). -/
def Err.load : Val → Option Err
  | .map [(name, v)] =>
    if name = c!"AstError" then do
      let token ← Token.load (← v.field c!"token")
      let additional ← (← v.field c!"additional").toStr
      let range ← loadOptRange v
      return .ast token (String.ofList additional) range
    else if name = c!"TokenizerError" then (TokErr.load v).map .tokenizer
    else none
  | _ => none

end Parser

/-- `Serialize for LexerResult<T>` (tokenizer/lexer.rs 1503–1512), given how `T` is stored. -/
def LexRes.save {α : Type} (item : α → Val) : LexRes α → Val
  | .ok a => .map [(c!"Ok", item a)]
  | .fatal es => .map [(c!"Fatal", .seq (es.map TokErr.save))]
  | .recovered a es => .map [(c!"Recovered", .seq [item a, .seq (es.map TokErr.save)])]

/-- `Deserialize for LexerResult<T>` (tokenizer/lexer.rs 1503–1512). -/
def LexRes.load {α : Type} (item : Val → Option α) : Val → Option (LexRes α)
  | .map [(name, v)] =>
    if name = c!"Ok" then (item v).map .ok
    else if name = c!"Fatal" then (v.toList TokErr.load).map .fatal
    else if name = c!"Recovered" then
      match v with
      | .seq [a, es] => do return .recovered (← item a) (← es.toList TokErr.load)
      | _ => none
    else none
  | _ => none

end FM
