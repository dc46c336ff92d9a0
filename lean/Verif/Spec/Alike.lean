import Verif.Spec.Formatting

/-!
# Specification: names, numbers and strings (C70)

What remains of tokens, errors and trees when, besides white space, comments and positions, it is ignored which names,
numbers and strings the tokens are.  A few names are words of the Luau grammar and are kept.
-/

namespace FM.Spec
open FM.Parser

/-- The names that mean something to the parser. -/
def specialNames : List Text := [c!"type", c!"export", c!"continue", c!"read", c!"write", c!"typeof"]

/-- A name, unless it means something to the parser, is replaced by nothing. -/
def anonymous (name : Text) : Text := if name ∈ specialNames then name else []

/-- A token type without the text of names, numbers and strings.  (No number is one of the words above.) -/
def faded : TokenType → TokenType
  | .identifier name => .identifier (anonymous name)
  | .number text => .number (anonymous text)
  | .stringLiteral _ _ _ => .stringLiteral [] 0 .double
  | .interpolated _ kind => .interpolated [] kind
  | ty => ty

/-- A token without trivia, positions and the text of names, numbers and strings; a section of an interpolated string
keeps whether something follows it. -/
def faint (t : TokRef) : TokRef :=
  ⟨[], ⟨⟨0, 0, 0⟩, ⟨0, 0, 0⟩, faded t.token.type⟩,
    if t.token.type.kind == .interpolatedString && !t.trailing.isEmpty then [space] else []⟩

/-- The result of a tokenizer step. -/
def faintRes : LexRes TokRef → LexRes TokRef
  | .ok t => .ok (faint t)
  | .fatal es => .fatal (es.map plainTokErr)
  | .recovered t es => .recovered (faint t) (es.map plainTokErr)

/-- An error: what remains of its token, its message, and whether it has a range. -/
def faintErr : Err → Err
  | .tokenizer e => .tokenizer (plainTokErr e)
  | .ast t msg range => .ast ⟨⟨0, 0, 0⟩, ⟨0, 0, 0⟩, faded t.type⟩ msg (range.map fun _ => (⟨0, 0, 0⟩, ⟨0, 0, 0⟩))

/-- The result of parsing. -/
def faintResult (r : AstResult) : AstResult :=
  ⟨⟨r.ast.nodes.mapTok faint, faint r.ast.eof⟩, r.errors.map faintErr, r.silent⟩

/-- A token type with another name. -/
def renamedType (σ : Text → Text) : TokenType → TokenType
  | .identifier name => .identifier (σ name)
  | ty => ty

/-- A token of a type. -/
def bareOf (ty : TokenType) : TokRef := ⟨[], ⟨⟨0, 0, 0⟩, ⟨0, 0, 0⟩, ty⟩, []⟩

/-- A token with another name, reduced to its type. -/
def renamed (σ : Text → Text) (t : TokRef) : TokRef := ⟨[], ⟨⟨0, 0, 0⟩, ⟨0, 0, 0⟩, renamedType σ t.token.type⟩, []⟩

end FM.Spec
