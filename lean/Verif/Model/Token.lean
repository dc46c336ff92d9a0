import Verif.Model.Symbol

/-!
# Tokens

Models `tokenizer/structs.rs` 181–345, 427–536, 586–605, 784–820, 851–918.
-/

namespace FM

/-- `struct Position` (`tokenizer/structs.rs` 852–858). `usize` is `Nat`. -/
structure Position where
  bytes : Nat
  line : Nat
  character : Nat
  deriving Repr, DecidableEq

/-- `Position::default()` (derived, `tokenizer/structs.rs` 852): the "null" position. -/
def Position.null : Position := ⟨0, 0, 0⟩

/-- `Ord for Position` (`tokenizer/structs.rs` 877–881): compares the byte offsets only. -/
def Position.cmp (a b : Position) : Ordering := compare a.bytes b.bytes

/-- `enum InterpolatedStringKind` (`tokenizer/structs.rs` 185–197). -/
inductive InterpKind where
  | begin | middle | end_ | simple
  deriving Repr, DecidableEq

/-- `enum StringLiteralQuoteType` (`tokenizer/structs.rs` 893–903). -/
inductive Quote where
  | brackets | double | single | backtick
  deriving Repr, DecidableEq

/-- `enum TokenType` (`tokenizer/structs.rs` 242–322). -/
inductive TokenType where
  | eof
  | identifier (text : Text)
  | multiLineComment (blocks : Nat) (comment : Text)
  | number (text : Text)
  | shebang (line : Text)
  | singleLineComment (comment : Text)
  | stringLiteral (literal : Text) (depth : Nat) (quote : Quote)
  | symbol (s : Symbol)
  | whitespace (characters : Text)
  | interpolated (literal : Text) (kind : InterpKind)
  | cStyleComment (comment : Text)
  deriving Repr, DecidableEq

/-- `TokenType::is_trivia` (`tokenizer/structs.rs` 327–346).  The variant `CStyleComment` only exists
when `cfxlua` is compiled, and is trivia then, so one definition covers both `cfg` branches. -/
def TokenType.isTrivia : TokenType → Bool
  | .shebang _ | .singleLineComment _ | .multiLineComment _ _ | .whitespace _ | .cStyleComment _ => true
  | _ => false

/-- `enum TokenKind` (`tokenizer/structs.rs` 398–425). -/
inductive TokenKind where
  | eof | identifier | multiLineComment | number | shebang | singleLineComment | stringLiteral
  | symbol | whitespace | interpolatedString | cStyleComment
  deriving Repr, DecidableEq

/-- `TokenType::kind` (`tokenizer/structs.rs` 360–378). -/
def TokenType.kind : TokenType → TokenKind
  | .eof => .eof
  | .identifier _ => .identifier
  | .multiLineComment _ _ => .multiLineComment
  | .number _ => .number
  | .shebang _ => .shebang
  | .singleLineComment _ => .singleLineComment
  | .stringLiteral _ _ _ => .stringLiteral
  | .symbol _ => .symbol
  | .whitespace _ => .whitespace
  | .interpolated _ _ => .interpolatedString
  | .cStyleComment _ => .cStyleComment

/-- `struct Token` (`tokenizer/structs.rs` 430–434). -/
structure Token where
  start : Position
  stop : Position
  type : TokenType
  deriving Repr, DecidableEq

/-- `Display for StringLiteralQuoteType` (`tokenizer/structs.rs` 905–918); `Brackets` is an error there
and is never reached from `Display for Token` (the other branch of the `if`). -/
def Quote.char : Quote → Text
  | .brackets => []
  | .double => ['"']
  | .single => ['\'']
  | .backtick => ['`']

/-- `Display for Token`, as a function of the token type (`tokenizer/structs.rs` 469–524). -/
def TokenType.display : TokenType → Text
  | .eof => []
  | .number text => text
  | .identifier t => t
  | .multiLineComment blocks comment =>
    c!"--[" ++ List.replicate blocks '=' ++ c!"[" ++ comment ++ c!"]" ++ List.replicate blocks '=' ++ c!"]"
  | .shebang line => line
  | .singleLineComment comment => c!"--" ++ comment
  | .stringLiteral literal depth quote =>
    if quote = .brackets then
      c!"[" ++ List.replicate depth '=' ++ c!"[" ++ literal ++ c!"]" ++ List.replicate depth '=' ++ c!"]"
    else quote.char ++ literal ++ quote.char
  | .symbol s => s.text
  | .whitespace characters => characters
  | .interpolated literal .begin => c!"`" ++ literal ++ c!"{"
  | .interpolated literal .middle => c!"}" ++ literal ++ c!"{"
  | .interpolated literal .end_ => c!"}" ++ literal ++ c!"`"
  | .interpolated literal .simple => c!"`" ++ literal ++ c!"`"
  | .cStyleComment comment => c!"/*" ++ comment ++ c!"*/"

/-- `Display for Token` (`tokenizer/structs.rs` 469–524). -/
def Token.display (t : Token) : Text := t.type.display

/-- `Ord for Token` (`tokenizer/structs.rs` 526–530). -/
def Token.cmp (a b : Token) : Ordering := a.start.cmp b.start

/-- `Token::new` (`tokenizer/structs.rs` 438–444). -/
def Token.new (t : TokenType) : Token := ⟨.null, .null, t⟩

/-- `struct TokenReference` (`tokenizer/structs.rs` 590–594).  Its `PartialEq` (800–806) compares all
three fields, which is structural equality.  The accessors (`tokenizer/structs.rs` 741–753) and the conversions to a
`Token` (`tokenizer/structs.rs` 770–782) return a field. -/
structure TokRef where
  leading : List Token
  token : Token
  trailing : List Token
  deriving Repr, DecidableEq

/-- `Display for TokenReference` (`tokenizer/structs.rs` 784–798). -/
def TokRef.display (t : TokRef) : Text :=
  t.leading.flatMap Token.display ++ t.token.display ++ t.trailing.flatMap Token.display

/-- The flat list of tokens of a token reference, in print order. -/
def TokRef.flat (t : TokRef) : List Token := t.leading ++ t.token :: t.trailing

/-- `Ord for TokenReference` (`tokenizer/structs.rs` 810–814). -/
def TokRef.cmp (a b : TokRef) : Ordering := a.token.cmp b.token

/-- `TokenReference::is_symbol` (`tokenizer/structs.rs` 765–767). -/
def TokRef.isSymbol (t : TokRef) (s : Symbol) : Bool := t.token.type == .symbol s

/-- `TokenReference::with_token` (`tokenizer/structs.rs` 756–762). -/
def TokRef.withToken (t : TokRef) (k : Token) : TokRef := { t with token := k }

/-- `enum TokenizerErrorType` (`tokenizer/structs.rs` 202–214). -/
inductive TokErrType where
  | unclosedComment
  | unclosedString
  | invalidNumber
  | unexpectedToken (c : Char)
  | invalidSymbol (s : Text)
  deriving Repr, DecidableEq

/-- `struct TokenizerError` (`tokenizer/structs.rs` 923–928). -/
structure TokErr where
  error : TokErrType
  range : Position × Position
  deriving Repr, DecidableEq

/-- `enum LexerResult<T>` (`tokenizer/lexer.rs` 1505–1512). -/
inductive LexRes (α : Type) where
  | ok (a : α)
  | fatal (errors : List TokErr)
  | recovered (a : α) (errors : List TokErr)
  deriving Repr, DecidableEq

/-- `LexerResult::new` (`tokenizer/lexer.rs` 1515–1521). -/
def LexRes.new {α : Type} (a : α) (errors : List TokErr) : LexRes α :=
  if errors.isEmpty then .ok a else .recovered a errors

/-- `LexerResult::errors` (`tokenizer/lexer.rs` 1540–1545). Note that it is empty for `Fatal`. -/
def LexRes.errors {α : Type} : LexRes α → List TokErr
  | .recovered _ es => es
  | _ => []

end FM
