import Verif.Spec.Trees
import Verif.Model.Parser.Parse

/-!
# Specification: formatting (C45)

What remains of tokens, errors and trees when white space, comments and positions are ignored.  White space that follows
a section of an interpolated string directly is the one exception: `{{` in a string is an error, `{ {` is not.
-/

namespace FM.Spec
open FM.Parser

/-- A space. -/
def space : Token := ⟨⟨0, 0, 0⟩, ⟨0, 0, 0⟩, .whitespace c!" "⟩

/-- A token without trivia and positions; a section of an interpolated string keeps whether something follows it. -/
def plain (t : TokRef) : TokRef :=
  ⟨[], ⟨⟨0, 0, 0⟩, ⟨0, 0, 0⟩, t.token.type⟩,
    if t.token.type.kind == .interpolatedString && !t.trailing.isEmpty then [space] else []⟩

/-- A tokenizer error without its range. -/
def plainTokErr (e : TokErr) : TokErr := ⟨e.error, ⟨0, 0, 0⟩, ⟨0, 0, 0⟩⟩

/-- The result of a tokenizer step. -/
def plainRes : LexRes TokRef → LexRes TokRef
  | .ok t => .ok (plain t)
  | .fatal es => .fatal (es.map plainTokErr)
  | .recovered t es => .recovered (plain t) (es.map plainTokErr)

/-- An error: its token and its message, and whether it has a range. -/
def plainErr : Err → Err
  | .tokenizer e => .tokenizer (plainTokErr e)
  | .ast t msg range => .ast ⟨⟨0, 0, 0⟩, ⟨0, 0, 0⟩, t.type⟩ msg (range.map fun _ => (⟨0, 0, 0⟩, ⟨0, 0, 0⟩))

/-- The result of parsing. -/
def plainResult (r : AstResult) : AstResult :=
  ⟨⟨r.ast.nodes.mapTok plain, plain r.ast.eof⟩, r.errors.map plainErr, r.silent⟩

end FM.Spec
