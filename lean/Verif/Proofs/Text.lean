import Verif.Model.Lexer
import Verif.Spec.Text

/-! Helper lemmas: positions and consumed prefixes. -/

namespace FM

def Position.adv (p : Position) (w : Text) : Position := w.foldl Position.advance p

@[simp] theorem Position.adv_nil (p : Position) : p.adv [] = p := rfl
@[simp] theorem Position.adv_cons (p : Position) (ch : Char) (w : Text) :
    p.adv (ch :: w) = (p.advance ch).adv w := rfl
@[simp] theorem Position.adv_append (p : Position) (v w : Text) : p.adv (v ++ w) = (p.adv v).adv w := by
  simp [Position.adv, List.foldl_append]

theorem position_snoc (w : Text) (ch : Char) :
    Spec.position (w ++ [ch]) = (Spec.position w).advance ch := by
  simp only [Spec.position, Position.advance, Spec.utf8Len, List.map_append, List.map_cons, List.map_nil,
    List.sum_append, List.sum_cons, List.sum_nil, List.count_append, List.reverse_append,
    List.reverse_cons, List.reverse_nil, List.nil_append, List.singleton_append, List.takeWhile_cons]
  by_cases h : ch = '\n'
  · subst h; simp; omega
  · have h2 : (List.count '\n' [ch]) = 0 := by
      rw [List.count_eq_zero]; simp; exact fun e => h e.symm
    simp [h, h2]; omega

theorem adv_position (v w : Text) : (Spec.position v).adv w = Spec.position (v ++ w) := by
  induction w generalizing v with
  | nil => simp
  | cons ch w ih => rw [Position.adv_cons, ← position_snoc, ih]; simp

theorem adv_initial (w : Text) : Position.initial.adv w = Spec.position w := adv_position [] w

/-- End position of a token with text `w` starting at `p`, in terms of the tokenizer's positions. -/
def tokenEnd (p : Position) (w : Text) : Position :=
  if w.getLast? = some '\n' then { p.adv w.dropLast with bytes := (p.adv w).bytes } else p.adv w

theorem tokenEnd_position (v w : Text) : tokenEnd (Spec.position v) w = Spec.endPosition v w := by
  unfold tokenEnd Spec.endPosition
  rw [adv_position, adv_position]
  rfl

theorem adv_bytes (p : Position) (w : Text) : (p.adv w).bytes = p.bytes + Spec.utf8Len w := by
  induction w generalizing p with
  | nil => simp [Spec.utf8Len]
  | cons ch w ih =>
    rw [Position.adv_cons, ih]
    simp only [Position.advance, Spec.utf8Len, List.map_cons, List.sum_cons]
    split <;> simp <;> omega

/-- From state `s`, exactly the characters `w` were read, giving `s'`. -/
def Reads (s : Src) (w : Text) (s' : Src) : Prop := s.rest = w ++ s'.rest ∧ s'.pos = s.pos.adv w

theorem Reads.refl (s : Src) : Reads s [] s := ⟨rfl, rfl⟩

theorem Reads.trans {s s' s'' : Src} {v w : Text} (h : Reads s v s') (h' : Reads s' w s'') :
    Reads s (v ++ w) s'' := by
  obtain ⟨h1, h2⟩ := h
  obtain ⟨h3, h4⟩ := h'
  exact ⟨by rw [h1, h3, List.append_assoc], by rw [h4, h2, Position.adv_append]⟩

theorem Reads.cons {ch : Char} {r : List Char} {p : Position} {w : Text} {s' : Src}
    (h : Reads ⟨r, p.advance ch⟩ w s') : Reads ⟨ch :: r, p⟩ (ch :: w) s' :=
  Reads.trans (v := [ch]) ⟨rfl, rfl⟩ h

theorem Reads.snoc {s : Src} {ch : Char} {r : List Char} {p : Position} {w : Text}
    (h : Reads s w ⟨ch :: r, p⟩) : Reads s (w ++ [ch]) ⟨r, p.advance ch⟩ :=
  Reads.trans h ⟨rfl, rfl⟩

theorem Reads.length {s s' : Src} {w : Text} (h : Reads s w s') :
    s.rest.length = w.length + s'.rest.length := by rw [h.1]; simp

theorem Reads.pos {s s' : Src} {w : Text} (h : Reads s w s') : s'.pos = s.pos.adv w := h.2

theorem consume_true {s s' : Src} {ch : Char} (h : s.consume ch = (true, s')) : Reads s [ch] s' := by
  unfold Src.consume Src.current Src.advance at h
  split at h
  · rename_i hc
    rcases hs : s.rest with _ | ⟨x, r⟩
    · simp [hs] at hc
    · simp [hs] at hc h
      subst hc
      subst h
      exact ⟨by simp [hs], rfl⟩
  · simp at h

theorem consume_false {s s' : Src} {ch : Char} (h : s.consume ch = (false, s')) :
    s' = s ∧ s.current ≠ some ch := by
  unfold Src.consume at h
  split at h
  · simp at h
  · simp at h
    exact ⟨h.symm, by assumption⟩

theorem advance_of_current {s : Src} {ch : Char} (h : s.current = some ch) : Reads s [ch] s.advance := by
  have : s.consume ch = (true, s.advance) := by simp [Src.consume, h]
  exact consume_true this

end FM
