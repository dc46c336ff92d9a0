import Verif.Spec.Trees

/-!
# Specification: trees that are stored and read back (C56, C57)
-/

namespace FM.Spec
open FM

/-- A string literal with no `=` in its brackets: all strings in quotes, and `[[...]]`. -/
def depthZero (t : Token) : Prop := ∃ literal quote, t.type = .stringLiteral literal 0 quote

/-- Every element of the list is `None`. -/
def allNone (n : Node) : Prop := ∀ c ∈ n.children, ∃ ds, c = .node .absent ds

/-- Nothing was left out that reading insists on: with Luau, a `local` assignment has a type annotation and a generic `for`
with an entry for some name has one; with Lua 5.4, a `local` assignment has an attribute. -/
def nothingLeftOut (f : Features) : Kind → List Node → Prop
  | .localAssignment, [_, types, _, attributes, _, _] =>
    (f.luau = true → ¬ allNone types) ∧ (f.lua54 = true → ¬ allNone attributes)
  | .genericFor, [_, _, _, _, _, _, _, types] => f.luau = true → types.children = [] ∨ ¬ allNone types
  | _, _ => True

/-- The trees that can be read back. -/
def Restorable (f : Features) (n : Node) : Prop :=
  n.Every (nothingLeftOut f) ∧ ∀ t ∈ n.tokens, ∀ k ∈ t.flat, ¬ depthZero k

/-- Fields that exist only with Luau or Lua 5.4 are empty without it. -/
def fieldsCompiled (f : Features) : Kind → List Node → Prop
  | .anonFunc, attributes :: _ => f.luau = false → attributes.children = []
  | .localFunction, attributes :: _ => f.luau = false → attributes.children = []
  | .functionDecl, attributes :: _ => f.luau = false → attributes.children = []
  | .methodCall, [_, _, instantiation, _] => f.luau = false → instantiation.children = []
  | .numericFor, [_, _, _, _, _, _, _, _, _, _, _, type] => f.luau = false → type.children = []
  | .genericFor, [_, _, _, _, _, _, _, types] => f.luau = false → types.children = []
  | .funcBody, [generics, _, _, types, result, _, _] =>
    f.luau = false → generics.children = [] ∧ types.children = [] ∧ result.children = []
  | .localAssignment, [_, types, _, attributes, _, _] =>
    (f.luau = false → types.children = []) ∧ (f.lua54 = false → attributes.children = [])
  | _, _ => True

/-- The tree only uses fields that exist with the compiled features. -/
def FieldsCompiled (f : Features) (n : Node) : Prop := n.Every (fieldsCompiled f)

end FM.Spec
