import Verif.Proofs.Stream

/-! Helper lemmas: the whole token stream of a source. -/

namespace FM
open Spec

/-- A run of the tokenizer from a state, described by the specification of each step. -/
inductive Run (c : Cfg) (src : Text) : Text → Lx → List (LexRes TokRef) → Prop where
  | stop {pre l} : l.sentEof = true → l.src.rest = [] → Run c src pre l []
  | next {pre w l r l' rs} : RefSpec c src pre w l (some r) l' → At src (pre ++ w) l'.src →
      Run c src (pre ++ w) l' rs → Run c src pre l (r :: rs)

theorem lexRest_spec {c : Cfg} (hc : c.Good) {src : Text} (fuel : Nat) (pre : Text) (l : Lx)
    (hat : At src pre l.src) (hinv : l.sentEof = true → l.src.rest = [])
    (hf : l.src.rest.length + (if l.sentEof then 1 else 2) ≤ fuel) :
    (lexRest c fuel l = .panic ∧ ¬ NoPanic c l) ∨
    ∃ rs, lexRest c fuel l = .ok rs ∧ Run c src pre l rs ∧
      rs.length ≤ l.src.rest.length + (if l.sentEof then 0 else 1) := by
  induction fuel generalizing pre l with
  | zero => split at hf <;> omega
  | succ fuel ih =>
    unfold lexRest
    rcases processNextWithTrivia_spec hc hat hinv with ⟨hp, hn⟩ | ⟨o, l1, w, h1, hr, hinv1, hspec⟩
    · rw [hp]; exact .inl ⟨rfl, hn⟩
    rw [h1]
    simp only [Outcome.bind]
    have hlen := hr.length
    cases o with
    | none =>
      obtain ⟨g1, rfl⟩ := hspec
      exact .inr ⟨[], rfl, .stop g1 (hinv g1), Nat.zero_le _⟩
    | some r =>
      have hat1 := hat.reads hr
      have hRef : RefSpec c src pre w l (some r) l1 := ⟨hr, hinv1, hspec⟩
      have hmeas : l1.src.rest.length + (if l1.sentEof then 0 else 1) + 1 ≤
          l.src.rest.length + (if l.sentEof then 0 else 1) := by
        have hpos : w ≠ [] → 0 < w.length := fun h => List.length_pos_iff.2 h
        cases r with
        | fatal es =>
          obtain ⟨_, _, g3, g4⟩ := hspec
          have := hpos g4
          rw [g3]; omega
        | ok t =>
          obtain ⟨g1, _, _, _, _, _, g2, g3⟩ := hspec
          rw [g1]
          by_cases ht : t.token.type = .eof
          · rw [(g2 ht).1]; simp; omega
          · have := hpos (g3 ht).2
            rw [(g3 ht).1]; simp; omega
        | recovered t es =>
          obtain ⟨g1, _, _, _, _, _, _, _, g2, g3⟩ := hspec
          rw [g1]
          by_cases ht : t.token.type = .eof
          · rw [(g2 ht).1]; simp; omega
          · have := hpos (g3 ht).2
            rw [(g3 ht).1]; simp; omega
      rcases ih (pre ++ w) l1 hat1 hinv1
        (by split at hf <;> split at hmeas <;> split <;> simp_all <;> omega) with ⟨hp, hn⟩ | ⟨rs, h2, h3, h4⟩
      · simp only [hp]; exact .inl ⟨trivial, NoPanic.not_of_suffix hr hn⟩
      simp only [h2]
      exact .inr ⟨r :: rs, rfl, .next hRef hat1 h3, by simp only [List.length_cons]; omega⟩

theorem lineLoop_spec' (rest : Text) (pos : Position) (acc : Text) : ∃ w,
    (lineLoop rest pos acc).1 = acc ++ w ∧ Reads ⟨rest, pos⟩ w (lineLoop rest pos acc).2 ∧ '\n' ∉ w ∧
    ((lineLoop rest pos acc).2.rest = [] ∨ (lineLoop rest pos acc).2.rest.head? = some '\n') := by
  induction rest generalizing pos acc with
  | nil => exact ⟨[], by simp [lineLoop], .refl _, by simp, by simp [lineLoop]⟩
  | cons ch rest ih =>
    unfold lineLoop
    split
    · rename_i h
      refine ⟨[], by simp, .refl _, by simp, .inr ?_⟩
      simpa using h
    · rename_i h
      obtain ⟨w, h1, h2, h3, h4⟩ := ih (pos.advance ch) (acc ++ [ch])
      refine ⟨ch :: w, by simp [h1], .cons h2, ?_, h4⟩
      simp only [List.mem_cons, not_or]
      exact ⟨fun h' => h h'.symm, h3⟩

theorem At.new (src : Text) : At src [] (Lx.new src).src := ⟨rfl, by simp [Lx.new, Src.new, Position.initial, position, utf8Len]⟩

theorem processFirst_noShebang {c : Cfg} {src : Text} (hsh : ¬ HasShebang src) :
    processFirstWithTrivia c (Lx.new src) = processNextWithTrivia c (Lx.new src) := by
  unfold processFirstWithTrivia
  split
  · rename_i r hr
    exfalso; apply hsh
    have : src = '#' :: '!' :: r := by rw [← hr]; rfl
    rw [this]; rfl
  · rfl

theorem lexAll_spec {c : Cfg} (hc : c.Good) {src : Text} :
    (lexAll c src = .panic ∧ ¬ BackticksOk c src) ∨ ∃ rs, lexAll c src = .ok rs ∧ rs.length ≤ src.length + 1 ∧
      (Run c src [] (Lx.new src) rs ∧ ShebangKept src rs ∨
       HasShebang src ∧ ∃ pre l, pre ≠ [] ∧ At src pre l.src ∧ (l.sentEof = true → l.src.rest = []) ∧ Run c src pre l rs) := by
  have hat0 := At.new src
  have hinv0 : (Lx.new src).sentEof = true → (Lx.new src).src.rest = [] := by simp [Lx.new]
  -- from a state reached after the first call, the rest is a run
  have fin : ∀ (pre : Text) (l : Lx), At src pre l.src → (l.sentEof = true → l.src.rest = []) →
      (lexRest c (src.length + 2) l = .panic ∧ ¬ NoPanic c l) ∨
      ∃ rs, lexRest c (src.length + 2) l = .ok rs ∧ Run c src pre l rs ∧
        rs.length ≤ l.src.rest.length + (if l.sentEof then 0 else 1) := by
    intro pre l hat hinv
    refine lexRest_spec hc _ pre l hat hinv ?_
    have : l.src.rest.length ≤ src.length := by rw [hat.1]; simp
    split <;> omega
  -- the ordinary first call, from any state
  have ord : ∀ (pre : Text) (l : Lx), At src pre l.src → (l.sentEof = true → l.src.rest = []) →
      (((processNextWithTrivia c l).bind fun
        | (none, l) => (lexRest c (src.length + 2) l).bind fun ts => .ok ts
        | (some t, l) => (lexRest c (src.length + 2) l).bind fun ts => .ok (t :: ts)) = .panic ∧ ¬ NoPanic c l) ∨
      ∃ rs, ((processNextWithTrivia c l).bind fun
        | (none, l) => (lexRest c (src.length + 2) l).bind fun ts => .ok ts
        | (some t, l) => (lexRest c (src.length + 2) l).bind fun ts => .ok (t :: ts)) = .ok rs ∧
        Run c src pre l rs ∧ rs.length ≤ src.length + 1 := by
    intro pre l hat hinv
    have hle : l.src.rest.length ≤ src.length := by rw [hat.1]; simp
    have heq : ((processNextWithTrivia c l).bind fun
        | (none, l) => (lexRest c (src.length + 2) l).bind fun ts => .ok ts
        | (some t, l) => (lexRest c (src.length + 2) l).bind fun ts => .ok (t :: ts)) =
        lexRest c (src.length + 3) l := by
      conv => rhs; unfold lexRest
      rcases processNextWithTrivia_spec hc hat hinv with ⟨hp, hn⟩ | ⟨o, l1, w, h1, hr, hinv1, hspec⟩
      · rw [hp]
      rw [h1]
      cases o with
      | none =>
        obtain ⟨g1, rfl⟩ := hspec
        simp only [Outcome.bind]
        have : lexRest c (src.length + 2) l1 = .ok [] := by unfold lexRest; rw [h1]
        rw [this]
      | some r => rfl
    rw [heq]
    rcases lexRest_spec hc (src.length + 3) pre l hat hinv (by split <;> omega) with h | ⟨rs, h1, h2, h3⟩
    · exact .inl h
    · exact .inr ⟨rs, h1, h2, by split at h3 <;> omega⟩
  unfold lexAll
  by_cases hsh : HasShebang src
  · unfold processFirstWithTrivia
    obtain ⟨r, hsrc⟩ : ∃ r, src = '#' :: '!' :: r := by
      unfold HasShebang at hsh
      match src, hsh with
      | a :: b :: r, h => simp at h; exact ⟨r, by rw [h.1, h.2]⟩
      | [a], h => simp at h
      | [], h => simp at h
    have hnew : (Lx.new src).src.rest = '#' :: '!' :: r := by rw [← hsrc]; rfl
    simp only [hnew]
    obtain ⟨w, h1, h2, h3, h4⟩ := lineLoop_spec' r (((Lx.new src).src.pos.advance '#').advance '!') ['#', '!']
    generalize hll : lineLoop r (((Lx.new src).src.pos.advance '#').advance '!') ['#', '!'] = ll at h1 h2 h4
    obtain ⟨line, s⟩ := ll
    simp only at h1 h2 h4
    have hr0 : Reads (Lx.new src).src ('#' :: '!' :: w) s := by
      have : (Lx.new src).src = ⟨'#' :: '!' :: r, (Lx.new src).src.pos⟩ := by
        rw [← hnew]
      rw [this]
      exact .cons (.cons h2)
    have hline : line = '#' :: '!' :: w := by rw [h1]; rfl
    have hat1 := hat0.reads hr0
    rw [← hline, List.nil_append] at hat1
    rcases processNextWithTrivia_spec hc (l := { Lx.new src with src := s }) hat1 (by simp [Lx.new]) with
      ⟨hp, hn⟩ | ⟨o, l1, w1, g1, gr, ginv, gspec⟩
    · simp only [hp]
      exact .inl ⟨trivial, NoPanic.not_of_suffix hr0 hn⟩
    simp only [g1]
    have hat2 := hat1.reads gr
    have lost : ((((processNextWithTrivia c l1)).bind fun
        | (none, l) => (lexRest c (src.length + 2) l).bind fun ts => .ok ts
        | (some t, l) => (lexRest c (src.length + 2) l).bind fun ts => .ok (t :: ts)) = .panic ∧
          ¬ BackticksOk c src) ∨ ∃ rs, (((processNextWithTrivia c l1)).bind fun
        | (none, l) => (lexRest c (src.length + 2) l).bind fun ts => .ok ts
        | (some t, l) => (lexRest c (src.length + 2) l).bind fun ts => .ok (t :: ts)) = .ok rs ∧
        rs.length ≤ src.length + 1 ∧
        (Run c src [] (Lx.new src) rs ∧ ShebangKept src rs ∨
         HasShebang src ∧ ∃ pre l, pre ≠ [] ∧ At src pre l.src ∧ (l.sentEof = true → l.src.rest = []) ∧ Run c src pre l rs) := by
      rcases ord _ l1 hat2 ginv with ⟨hp, hn⟩ | ⟨rs, q1, q2, q3⟩
      · exact .inl ⟨hp, NoPanic.not_of_suffix hr0 (NoPanic.not_of_suffix gr hn)⟩
      exact .inr ⟨rs, q1, q3, .inr ⟨hsh, _, _, by rw [hline]; simp, hat2, ginv, q2⟩⟩
    match o, gspec with
    | none, gspec => exact lost
    | some (.fatal es), gspec => exact lost
    | some (.recovered t es), gspec => exact lost
    | some (.ok t), gspec =>
      simp only [Outcome.bind]
      rcases fin _ l1 hat2 ginv with ⟨hp, hn⟩ | ⟨rs, q1, q2, q3⟩
      · rw [hp]; exact .inl ⟨rfl, NoPanic.not_of_suffix hr0 (NoPanic.not_of_suffix gr hn)⟩
      rw [q1]
      obtain ⟨e1, e2, e3, e4, e5, e6, e7, e8⟩ := gspec
      have hd : Token.display ⟨(Lx.new src).src.pos, s.pos, .shebang line⟩ = line := by
        rfl
      refine .inr ⟨_, rfl, ?_, .inl ⟨.next (w := line ++ w1) (l' := l1) ?_ ?_ ?_, fun _ => ?_⟩⟩
      · have hlen := hr0.length
        have hnl : (Lx.new src).src.rest.length = src.length := rfl
        rw [hnl] at hlen
        simp only [List.length_cons] at hlen ⊢
        have := gr.length
        simp only at this
        split at q3 <;> omega
      · refine ⟨hline ▸ hr0.trans gr, ginv, rfl, ?_, ?_, e4, ?_, e6, e7, ?_⟩
        · rw [e2]; simp [TokRef.display, hd]
        · show Placed c [] (_ :: t.flat) _
          refine ⟨hat0.2, ?_, ?_, ?_⟩
          · rw [hd, hat1.2]
            simp only [endPosition, List.nil_append]
            split
            · rename_i hl
              exfalso
              have := List.mem_of_getLast? hl
              rw [hline] at this
              simp at this
              exact h3 this
            · rfl
          · show _ ∧ _ ∧ _
            refine ⟨by rw [hline]; rfl, by rw [hline]; simp [h3], ?_⟩
            have : text t.flat ++ l1.src.rest = s.rest := by
              rw [gr.1, e2]
              simp [TokRef.flat, TokRef.display, text]
            rw [this]; exact h4
          · rw [hd, List.nil_append]; exact e3
        · intro x hx
          simp only [List.cons_append, List.mem_cons] at hx
          rcases hx with rfl | hx
          · rfl
          · exact e5 x hx
        · intro ht; exact ⟨(e8 ht).1, by rw [hline]; simp⟩
      · simpa using hat2
      · simpa using q2
      · exact ⟨_, rs, _, t.leading, rfl, rfl, rfl, line, rfl⟩
  · rw [processFirst_noShebang hsh]
    rcases ord [] (Lx.new src) hat0 hinv0 with h | ⟨rs, q1, q2, q3⟩
    · exact .inl h
    exact .inr ⟨rs, q1, q3, .inl ⟨q2, fun h => absurd h hsh⟩⟩

end FM
