import Verif.Model.Parser.Parse
import Verif.Spec.Trees

/-!
# Specification: the results of parsing (C18–C22, C36, C37, C40)
-/

namespace FM.Spec
open FM.Parser

/-- The tokenizer errors among the errors reported by `parse_fallible`. -/
def tokenizerErrors (es : List Err) : List TokErr :=
  es.filterMap fun
    | .tokenizer e => some e
    | .ast _ _ _ => none

/-- The tokens the syntax errors point to. -/
def errorTokens (es : List Err) : List Token :=
  es.filterMap fun
    | .tokenizer _ => none
    | .ast t _ _ => some t

/-- The texts of the tokens invented by error recovery. -/
def inventedTexts : List Text :=
  [c!"(", c!")", c!"\nend", c!"if ", c!" then", c!"while ", c!" do\n", c!"end\n", c!"do\n", c!"end", c!"do", c!"...",
   c!">", c!"}", c!"]", c!"=", c!"::", c!"%error-id%", c!"}`"]

/-- The places where they claim to start. -/
def inventedStarts : List Position := [⟨0, 0, 0⟩, ⟨0, 1, 1⟩, ⟨1, 1, 2⟩, ⟨1, 2, 1⟩]

/-- A token that error recovery may add to a tree. -/
def Invented (t : TokRef) : Prop := t.display ∈ inventedTexts ∧ t.token.start ∈ inventedStarts

/-- The position of a token that stands nowhere. -/
def nullPosition : Position := ⟨0, 0, 0⟩

/-- The parser has no reason to panic: Luau is not active; or no result of the tokenizer is fatal and, if the
operators of Lua 5.3 are compiled in, they are active. -/
def NoPanicReason (c : Cfg) (rs : List (LexRes TokRef)) : Prop :=
  c.has .luau = false ∨ (∀ es, .fatal es ∉ rs) ∧ (c.feat.lua53 = true → c.has .lua53 = true)

end FM.Spec
