import Verif.Model.Token

/-!
# Specification: a list of values, each optionally followed by a separator (C33, C34)
-/

namespace FM.Spec

/-- The editing calls of a punctuated sequence. -/
inductive Edit (α : Type) where
  /-- add a value and its separator, if any -/
  | push (value : α) (separator : Option TokRef)
  | pop
  | pushPunctuated (value : α) (separator : TokRef)

variable {α : Type}

/-- A sequence is a list of values with their separators. -/
abbrev Sep (α : Type) := List (α × Option TokRef)

/-- `push_punctuated` is legal when there is a last value and it has no separator. -/
def Legal : Sep α → Edit α → Prop
  | xs, .pushPunctuated _ _ => ∃ ys v, xs = ys ++ [(v, none)]
  | _, _ => True

/-- Effect of an edit on a list. -/
def edit : Sep α → Edit α → Sep α
  | xs, .push v s => xs ++ [(v, s)]
  | xs, .pop => xs.dropLast
  | xs, .pushPunctuated v s =>
    match xs.getLast? with
    | some (w, _) => xs.dropLast ++ [(w, some s), (v, none)]
    | none => xs

/-- Every value except the last has a separator; the last has none. -/
def Punctual : Sep α → Prop
  | [] => True
  | [(_, s)] => s = none
  | (_, s) :: x :: xs => s ≠ none ∧ Punctual (x :: xs)

end FM.Spec
