/-!
# Shared conventions of the model

Model of `/repo/full-moon` (Rust), read as text.  Source citations are relative to `/repo/full-moon/src`
unless they start with `/repo`.
-/

namespace FM

/-- Text is a list of Unicode scalar values (Rust `str` / `ShortString`; Lean's `Char` is exactly a
Unicode scalar value, as Rust's `char`). -/
abbrev Text := List Char

open Lean in
/-- `c!"abc"` is the literal `['a', 'b', 'c']`. -/
macro:max "c!" s:str : term => do
  let cs := s.getString.toList.map (fun c => Syntax.mkCharLit c)
  `([$(cs.toArray),*])

/-- Result of running a piece of modelled Rust code.
`panic` is a Rust panic (`unwrap` on `None`, `unreachable!`, `assert!`, `panic!`);
`diverge` means that the fuel given to a model loop ran out (ruled out by theorems). -/
inductive Outcome (α : Type) where
  | ok (a : α)
  | panic
  | diverge
  deriving Repr, DecidableEq

namespace Outcome

@[reducible] def bind {α β : Type} (x : Outcome α) (f : α → Outcome β) : Outcome β :=
  match x with
  | .ok a => f a
  | .panic => .panic
  | .diverge => .diverge

instance : Monad Outcome where
  pure := .ok
  bind := bind

@[simp] theorem bind_ok {α β : Type} (a : α) (f : α → Outcome β) : (Outcome.ok a >>= f) = f a := rfl
@[simp] theorem bind_panic {α β : Type} (f : α → Outcome β) : ((Outcome.panic : Outcome α) >>= f) = .panic := rfl
@[simp] theorem bind_diverge {α β : Type} (f : α → Outcome β) : ((Outcome.diverge : Outcome α) >>= f) = .diverge := rfl
@[simp] theorem pure_eq {α : Type} (a : α) : (pure a : Outcome α) = .ok a := rfl

theorem bind_eq_ok {α β : Type} {x : Outcome α} {f : α → Outcome β} {b : β} :
    (x >>= f) = .ok b ↔ ∃ a, x = .ok a ∧ f a = .ok b := by
  cases x <;> simp

end Outcome

end FM
