import Verif.Model.Basic

/-! Helper lemmas: running the model on concrete sources in the kernel, for witnesses and examples. -/

namespace FM.Outcome

variable {α β : Type}

def isPanic : Outcome α → Bool
  | .panic => true
  | _ => false

theorem eq_panic {o : Outcome α} (h : o.isPanic = true) : o = .panic := by
  cases o <;> first | rfl | cases h

/-- The outcome is normal and passes the test. -/
def test (p : α → Bool) : Outcome α → Bool
  | .ok a => p a
  | _ => false

theorem run {P : α → Prop} [DecidablePred P] {o : Outcome α} (h : o.test (fun a => decide (P a)) = true) :
    ∃ a, o = .ok a ∧ P a := by
  cases o with
  | ok a => exact ⟨a, rfl, of_decide_eq_true h⟩
  | panic => cases h
  | diverge => cases h

theorem run₂ {P : α → β → Prop} [∀ a b, Decidable (P a b)] {o : Outcome α} {o' : Outcome β}
    (h : o.test (fun a => o'.test fun b => decide (P a b)) = true) : ∃ a b, o = .ok a ∧ o' = .ok b ∧ P a b := by
  cases o with
  | ok a =>
    cases o' with
    | ok b => exact ⟨a, b, rfl, rfl, of_decide_eq_true h⟩
    | panic => cases h
    | diverge => cases h
  | panic => cases h
  | diverge => cases h

end FM.Outcome
