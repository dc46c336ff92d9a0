import Verif.Props.Tokenizer

/-!
# Ordering of positions and tokens: C38
-/

namespace FM.Props
open FM FM.Spec

/-- **C38.** Comparing positions is a total preorder by byte offset. -/
theorem position_cmp_swap (a b : Position) : (a.cmp b).swap = b.cmp a := by
  unfold Position.cmp
  rw [Nat.compare_swap]

theorem position_cmp_trans (a b d : Position) (h1 : a.cmp b ≠ .gt) (h2 : b.cmp d ≠ .gt) : a.cmp d ≠ .gt := by
  unfold Position.cmp at *
  rw [ne_eq, Nat.compare_eq_gt] at *
  omega

theorem position_cmp_eq (a b : Position) : a.cmp b = .eq ↔ a.bytes = b.bytes := by
  unfold Position.cmp
  exact Nat.compare_eq_eq

/-- The negation of the second half of C38: positions that compare as equal but are different. -/
theorem position_cmp_not_consistent : ∃ a b : Position, a.cmp b = .eq ∧ a ≠ b :=
  ⟨⟨0, 1, 1⟩, ⟨0, 0, 0⟩, by decide, by decide⟩

/-- ... and even tokens of one source: comparing tokens only looks at where they start, so an empty token is
equal to its neighbour.  Here the two tokens are the `x` and the Eof token of two streams of sources that
agree before them. -/
theorem token_cmp_not_consistent : ∃ a b : Token, a.cmp b = .eq ∧ a ≠ b :=
  ⟨⟨⟨0, 1, 1⟩, ⟨1, 1, 2⟩, .identifier c!"x"⟩, ⟨⟨0, 1, 1⟩, ⟨0, 1, 1⟩, .eof⟩, by decide, by decide⟩

/-- UTF-8 length of a proper extension is larger. -/
theorem utf8Len_append (a b : Text) : utf8Len (a ++ b) = utf8Len a + utf8Len b := by
  simp [utf8Len]

theorem utf8Len_pos {a : Text} (h : a ≠ []) : 0 < utf8Len a := by
  cases a with
  | nil => exact absurd rfl h
  | cons ch a =>
    have := Char.utf8Size_pos ch
    simp [utf8Len]
    omega

/-- **C38, partial.** On positions of one source the comparison is consistent with equality: two prefixes of
a source have positions that compare as equal only when the prefixes (hence the positions) are the same.
Missing: the claim for arbitrary positions and tokens, which is false (above). -/
theorem position_cmp_consistent_partial {source p q r s : Text} (h1 : source = p ++ q) (h2 : source = r ++ s) :
    (position p).cmp (position r) = .eq ↔ position p = position r := by
  constructor
  · intro h
    rw [position_cmp_eq] at h
    simp only [position] at h
    have : p = r := by
      rw [h1] at h2
      rcases List.append_eq_append_iff.1 h2 with ⟨w, rfl, _⟩ | ⟨w, rfl, _⟩
      · rw [utf8Len_append] at h
        cases w with
        | nil => simp
        | cons ch w => have := utf8Len_pos (a := ch :: w) (by simp); omega
      · rw [utf8Len_append] at h
        cases w with
        | nil => simp
        | cons ch w => have := utf8Len_pos (a := ch :: w) (by simp); omega
    rw [this]
  · intro h
    rw [h, position_cmp_eq]

/-- On one source the comparison is the order of the prefixes. -/
theorem position_cmp_prefix {source p q r s : Text} (h1 : source = p ++ q) (h2 : source = r ++ s) :
    (position p).cmp (position r) = compare p.length r.length := by
  unfold Position.cmp
  simp only [position]
  rw [h1] at h2
  rcases List.append_eq_append_iff.1 h2 with ⟨w, rfl, _⟩ | ⟨w, rfl, _⟩
  · rw [utf8Len_append, List.length_append]
    cases w with
    | nil => simp [utf8Len]
    | cons ch w =>
      have := utf8Len_pos (a := ch :: w) (by simp)
      have e1 : compare (utf8Len p) (utf8Len p + utf8Len (ch :: w)) = .lt := Nat.compare_eq_lt.2 (by omega)
      have e2 : compare p.length (p.length + (ch :: w).length) = .lt := Nat.compare_eq_lt.2 (by simp)
      rw [e1, e2]
  · rw [utf8Len_append, List.length_append]
    cases w with
    | nil => simp [utf8Len]
    | cons ch w =>
      have := utf8Len_pos (a := ch :: w) (by simp)
      have e1 : compare (utf8Len r + utf8Len (ch :: w)) (utf8Len r) = .gt := Nat.compare_eq_gt.2 (by omega)
      have e2 : compare (r.length + (ch :: w).length) r.length = .gt := Nat.compare_eq_gt.2 (by simp)
      rw [e1, e2]

/-- Error-free tokens other than Eof are not empty. -/
theorem display_ne_nil {c : Cfg} {x : Token} {rest : Text} (h : TypeWf c x.type rest) (hx : x.type ≠ .eof) :
    x.display ≠ [] := by
  unfold Token.display
  cases ht : x.type with
  | eof => exact absurd ht hx
  | symbol y => cases y <;> simp [TokenType.display, Symbol.text]
  | identifier t =>
    rw [ht] at h
    rintro rfl
    exact h.1
  | number t =>
    rw [ht] at h
    rintro rfl
    exact absurd h.1 (by decide)
  | shebang t =>
    rw [ht] at h
    rintro rfl
    exact absurd h.1 (by decide)
  | whitespace t =>
    rw [ht] at h
    exact h.1
  | stringLiteral t n q => cases q <;> simp [TokenType.display, Quote.char]
  | interpolated t k => cases k <;> simp [TokenType.display]
  | _ => simp [TokenType.display]

/-- **C38.** In an error-free stream the comparison of tokens follows their order in the stream strictly. -/
theorem tokens_strictly_ordered {c : Cfg} (hc : c.Reachable) {source : Text} {rs : List (LexRes TokRef)}
    (h : lexAll c source = .ok rs) (he : errorsOf rs = [])
    {a b d : List Token} {x y : Token} (hsplit : flatTokens rs = a ++ x :: (b ++ y :: d)) (hx : x.type ≠ .eof) :
    x.cmp y = .lt := by
  obtain ⟨pre, l, hat, hrun, _, _⟩ := lexAll_run hc.good h
  have hp := (hrun.noErr hat he).2
  rw [hsplit, placed_append] at hp
  obtain ⟨_, hx1, _, hwf, hp⟩ := hp
  rw [placed_append] at hp
  obtain ⟨_, hy1, _⟩ := hp
  unfold Token.cmp Position.cmp
  rw [hx1, hy1, Nat.compare_eq_lt]
  simp only [position, utf8Len_append]
  have := utf8Len_pos (display_ne_nil hwf hx)
  omega

/-- Non-vacuity: three tokens of one stream. -/
example : ∃ rs a b d x y, lexAll cfg51 c!"x = 1" = .ok rs ∧ errorsOf rs = [] ∧
    flatTokens rs = a ++ x :: (b ++ y :: d) ∧ x.type = .identifier c!"x" ∧ y.type = .number c!"1" := by
  refine ⟨_, [], [_, _, _], [_], _, _, rfl, by decide, rfl, rfl, rfl⟩

example : (position c!"a\nb").cmp (position c!"a") = .gt := by decide

end FM.Props
