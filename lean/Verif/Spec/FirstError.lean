import Verif.Spec.Lexical

/-!
# Specification: where a source stops being made of tokens (C71)

The lexical grammar is that of C51 (`Lexeme`).
-/

namespace FM.Spec

/-- The text begins with tokens of these types, and `rest` follows them.  `bs` are the braces that are open in front of
the text, `bs'` those that are open in front of `rest`. -/
inductive MadeOf (c : Cfg) : (bs : List BraceType) → (text : Text) → List TokenType → (bs' : List BraceType) → (rest : Text) → Prop where
  | nil {bs text} : MadeOf c bs text [] bs text
  | token {bs bs1 bs' ty rest1 rest tys} : Lexeme c bs ty rest1 bs1 → MadeOf c bs1 rest1 tys bs' rest →
      MadeOf c bs (ty.display ++ rest1) (ty :: tys) bs' rest

/-- Something is left, and no token can be read there. -/
def Stuck (c : Cfg) (bs : List BraceType) (rest : Text) : Prop :=
  rest ≠ [] ∧ ∀ ty rest' bs', rest = ty.display ++ rest' → ¬ Lexeme c bs ty rest' bs'

/-- The text the types stand for. -/
def written (tys : List TokenType) : Text := tys.flatMap TokenType.display

end FM.Spec
