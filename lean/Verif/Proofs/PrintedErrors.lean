import Verif.Model.Errors

/-! Helper lemmas for C53: decimal numbers inside a text. -/

namespace FM

theorem decimal_inj {m n : Nat} (h : decimal m = decimal n) : m = n := by
  unfold decimal at h
  rw [Nat.toList_repr, Nat.toList_repr] at h
  rw [← Nat.ofDigitChars_toDigits (b := 10) (n := m) (by decide) (by decide), h, Nat.ofDigitChars_toDigits (by decide) (by decide)]

theorem decimal_digits {n : Nat} : ∀ ch ∈ decimal n, ch.isDigit = true := by
  intro ch h
  unfold decimal at h
  rw [Nat.toList_repr] at h
  exact Nat.isDigit_of_mem_toDigits (by decide) (by decide) h

theorem front_cancel {x : Char} (hx : x.isDigit = false) {d d' a a' : Text} (hd : ∀ ch ∈ d, ch.isDigit = true) (hd' : ∀ ch ∈ d', ch.isDigit = true)
    (h : d ++ x :: a = d' ++ x :: a') : d = d' ∧ a = a' := by
  induction d generalizing d' with
  | nil =>
    cases d' with
    | nil => cases h; exact ⟨rfl, rfl⟩
    | cons y d' =>
      cases h
      rw [hd' x (by simp)] at hx; cases hx
  | cons y d ih =>
    cases d' with
    | nil =>
      cases h
      rw [hd x (by simp)] at hx; cases hx
    | cons z d' =>
      simp only [List.cons_append, List.cons.injEq] at h
      obtain ⟨rfl, h⟩ := h
      obtain ⟨rfl, rfl⟩ := ih (fun ch h => hd ch (by simp [h])) (fun ch h => hd' ch (by simp [h])) h
      exact ⟨rfl, rfl⟩

/-- A number behind a character that is not a digit, at the end of a text. -/
theorem decimal_cancel {x : Char} (hx : x.isDigit = false) {m n : Nat} {a a' : Text} (h : a ++ x :: decimal m = a' ++ x :: decimal n) : a = a' ∧ m = n := by
  have h := congrArg List.reverse h
  simp only [List.reverse_append, List.reverse_cons, List.append_assoc, List.singleton_append] at h
  obtain ⟨h1, h2⟩ := front_cancel hx (by simpa using decimal_digits) (by simpa using decimal_digits) h
  exact ⟨List.reverse_inj.1 h2, decimal_inj (List.reverse_inj.1 h1)⟩

end FM
