import Verif.Spec.Tokens

/-!
# Specification: a cursor on a fixed list (C08)
-/

namespace FM.Spec

/-- The calls of the streaming interface. -/
inductive Call where
  | current | peek | consume
  deriving Repr, DecidableEq

/-- Answers of a cursor on a list: `current` is the first remaining element, `peek` the second, `consume`
returns the first and removes it. -/
def cursor {α : Type} : List α → List Call → List (Option α)
  | _, [] => []
  | rs, .current :: cs => rs[0]? :: cursor rs cs
  | rs, .peek :: cs => rs[1]? :: cursor rs cs
  | rs, .consume :: cs => rs[0]? :: cursor rs.tail cs

/-- What remains after the calls. -/
def remaining {α : Type} (rs : List α) (cs : List Call) : List α := rs.drop (cs.count .consume)

end FM.Spec
