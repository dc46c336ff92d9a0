import Verif.Spec.Lexical

/-!
# From characters to token references

Where the tokens of a file are, and which of them white space and comments belong to.
-/

namespace FM.Spec
open FM

/-- The tokens of these types, one behind the other, at their positions. -/
def place (before : Text) : List TokenType → List Token
  | [] => []
  | ty :: tys => ⟨position before, endPosition before ty.display, ty⟩ :: place (before ++ ty.display) tys

/-- White space that ends the line. -/
def EndsLine (ty : TokenType) : Prop := ∃ s, ty = .whitespace s ∧ '\n' ∈ s

instance (ty : TokenType) : Decidable (EndsLine ty) :=
  match ty with
  | .whitespace s => if h : '\n' ∈ s then .isTrue ⟨s, rfl, h⟩ else .isFalse (by rintro ⟨_, h', h''⟩; cases h'; exact h h'')
  | .eof | .identifier _ | .shebang _ | .singleLineComment _ | .multiLineComment _ _ | .cStyleComment _ | .number _ | .symbol _
  | .stringLiteral _ _ _ | .interpolated _ _ => .isFalse (by rintro ⟨_, h, _⟩; cases h)

/-- Trivia that may follow a token: all but comments of CfxLua. -/
def Trails (ty : TokenType) : Prop :=
  match ty with
  | .whitespace _ | .singleLineComment _ | .multiLineComment _ _ => True
  | _ => False

instance (ty : TokenType) : Decidable (Trails ty) := by cases ty <;> simp only [Trails] <;> infer_instance

/-- The trivia that belongs to the token in front of it: up to and including the end of the line.  With what follows. -/
def restOfLine : List Token → List Token × List Token
  | [] => ([], [])
  | t :: ts =>
    if Trails t.type then
      if EndsLine t.type then ([t], ts) else (t :: (restOfLine ts).1, (restOfLine ts).2)
    else ([], t :: ts)

/-- Token references and the tokens they are made of: each has the trivia in front of it that does not belong to the
token before, and the trivia behind it that `restOfLine` describes. -/
inductive Attaches : List Token → List TokRef → Prop where
  | nil : Attaches [] []
  | cons {leading token rest refs} : (∀ x ∈ leading, x.type.isTrivia = true) → token.type.isTrivia = false →
      Attaches (restOfLine rest).2 refs → Attaches (leading ++ token :: rest) (⟨leading, token, (restOfLine rest).1⟩ :: refs)

/-- The source consists of these token references. -/
def Tokenizes (c : Cfg) (source : Text) (refs : List TokRef) : Prop :=
  ∃ tys, LexesFile c source tys ∧ Attaches (place [] tys) refs

end FM.Spec
