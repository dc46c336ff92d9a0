import Verif.Proofs.RespaceChain

/-! Helper lemmas: the tokens of a source as a chain. -/

namespace FM
open Spec

variable {c : Cfg}

theorem leadingLoop_last (fuel : Nat) {l : Lx} {lead : List Token} {errs : Option (List TokErr)} {ld : List Token} {t : Token} {l' : Lx}
    (h : leadingLoop c fuel l lead errs = .ok (.token ld t none, l')) : errs = none ∧ ∃ l0, processNext c l0 = .ok (some (.ok t), l') := by
  induction fuel generalizing l lead errs with
  | zero => cases h
  | succ fuel ih =>
    unfold leadingLoop at h
    cases e : processNext c l with
    | panic => rw [e] at h; cases h
    | diverge => rw [e] at h; cases h
    | ok r =>
      obtain ⟨o, l1⟩ := r
      rw [e] at h
      simp only [Outcome.bind] at h
      split at h
      · cases h
      · split at h
        · exact ih h
        · cases h
          rename_i heq
          cases heq
          exact ⟨rfl, l, e⟩
      · cases h
      · split at h
        · cases (ih h).1
        · cases h

theorem collectTrailing_text (hc : c.Good) (fuel : Nat) {l l' : Lx} {ts : List Token} (h : collectTrailing c fuel l = .ok (ts, l')) :
    l.src.rest = text ts ++ l'.src.rest := by
  induction fuel generalizing l ts with
  | zero => cases h
  | succ fuel ih =>
    unfold collectTrailing at h
    split at h
    · rename_i hh
      cases e : processNext c l with
      | panic => rw [e] at h; cases h
      | diverge => rw [e] at h; cases h
      | ok r =>
        obtain ⟨o, l1⟩ := r
        rw [e] at h
        simp only [Outcome.bind] at h
        split at h
        · rename_i t l2 heq
          cases heq
          have hd : l.src.rest = t.display ++ l1.src.rest := by
            cases h0 : l.src.rest with
            | nil => rw [h0] at hh; cases hh
            | cons ch r =>
              obtain ⟨res, hres, ⟨w, hw, hr, hg⟩, _⟩ := processNext_cons hc h0 e
              cases hres
              have := hg.2.2.1
              rw [← h0, this]
              exact hr.1
          split at h
          · split at h
            · cases h
              simp only [text_cons, text_nil, List.append_nil]
              exact hd
            · cases e2 : collectTrailing c fuel l1 with
              | panic => rw [e2] at h; cases h
              | diverge => rw [e2] at h; cases h
              | ok r =>
                obtain ⟨ts', l2⟩ := r
                rw [e2] at h
                cases h
                rw [text_cons, List.append_assoc, ← ih e2]
                exact hd
          · cases h; rfl
        · cases h; rfl
    · cases h; rfl

theorem processNextWithTrivia_scans (hc : c.Good) {l l' : Lx} {u : TokRef} (h : processNextWithTrivia c l = .ok (some (.ok u), l')) (hne : u.token.type ≠ .eof) :
    u.token.display ≠ [] ∧ Scans c u.token.type (text u.trailing ++ l'.src.rest) := by
  unfold processNextWithTrivia at h
  cases e : leadingLoop c (l.src.rest.length + 1) l [] none with
  | panic => rw [e] at h; cases h
  | diverge => rw [e] at h; cases h
  | ok r =>
    obtain ⟨nt, l1⟩ := r
    rw [e] at h
    simp only [Outcome.bind] at h
    split at h
    · cases h
    · cases h
    · rename_i lead t errs l2 heq
      cases heq
      cases e2 : collectTrailing c (l1.src.rest.length + 1) l1 with
      | panic => rw [e2] at h; cases h
      | diverge => rw [e2] at h; cases h
      | ok r =>
        obtain ⟨ts, l2⟩ := r
        rw [e2] at h
        simp only at h
        cases errs with
        | some es => cases h
        | none =>
          cases h
          obtain ⟨_, l0, h0⟩ := leadingLoop_last _ e
          have ht := collectTrailing_text hc _ e2
          simp only at hne ⊢
          cases hr : l0.src.rest with
          | nil =>
            rw [processNext_nil hr] at h0
            split at h0
            · cases h0
            · cases h0; exact absurd rfl hne
          | cons ch r =>
            obtain ⟨res, hres, ⟨w, hw, hrd, hg⟩, _⟩ := processNext_cons hc hr h0
            cases hres
            have hd := hg.2.2.1
            refine ⟨by rw [hd]; exact hw, l0.src.pos, l0.sentEof, l0.braces, t, l1, ?_, rfl, ht⟩
            rw [← ht]
            have : t.type.display ++ l1.src.rest = l0.src.rest := by
              have h1 := hrd.1
              rw [← hd] at h1
              exact h1.symm
            rw [this]
            exact h0

/-- Every token of the list is read in front of the text of the tokens behind it. -/
def AllScan (c : Cfg) : List TokRef → Prop
  | [] => True
  | u :: us => u.token.type.isTrivia = false ∧ (u.token.type = .eof → u.trailing = [] ∧ us = []) ∧
      (u.token.type ≠ .eof → u.token.display ≠ [] ∧ Scans c u.token.type (text u.trailing ++ us.flatMap TokRef.display)) ∧ AllScan c us

theorem allScan_mem {us : List TokRef} (h : AllScan c us) {t : TokRef} (ht : t ∈ us) (hne : t.token.type ≠ .eof) :
    t.token.type.isTrivia = false ∧ ∃ rest, t.token.type.display ≠ [] ∧ Scans c t.token.type rest := by
  induction us with
  | nil => cases ht
  | cons u us ih =>
    rcases List.mem_cons.1 ht with rfl | ht
    · exact ⟨h.1, _, h.2.2.1 hne⟩
    · exact ih h.2.2.2 ht

theorem lexRest_sent {fuel : Nat} {l : Lx} {rs : List (LexRes TokRef)} (hs : l.sentEof = true) (hr : l.src.rest = []) (h : lexRest c fuel l = .ok rs) : rs = [] := by
  cases fuel with
  | zero => cases h
  | succ fuel =>
    have : processNextWithTrivia c l = .ok (none, l) := by
      unfold processNextWithTrivia leadingLoop
      rw [processNext_nil hr, if_pos hs]
    unfold lexRest at h
    rw [this] at h
    cases h
    rfl

theorem lexRest_scans (hc : c.Good) {src : Text} (fuel : Nat) (pre : Text) (l : Lx) (hat : At src pre l.src) (hinv : l.sentEof = true → l.src.rest = [])
    {us : List TokRef} (h : lexRest c fuel l = .ok (us.map .ok)) : l.src.rest = us.flatMap TokRef.display ∧ AllScan c us := by
  induction fuel generalizing pre l us with
  | zero => cases h
  | succ fuel ih =>
    unfold lexRest at h
    rcases processNextWithTrivia_spec hc hat hinv with ⟨hp, hn⟩ | ⟨o, l1, w, h1, hr, hinv1, hspec⟩
    · rw [hp] at h; cases h
    rw [h1] at h
    cases o with
    | none =>
      simp only [Outcome.bind, Outcome.ok.injEq] at h
      have := List.map_eq_nil_iff.1 h.symm
      subst this
      exact ⟨hinv hspec.1, trivial⟩
    | some r =>
      simp only [Outcome.bind] at h
      cases e : lexRest c fuel l1 with
      | panic => rw [e] at h; cases h
      | diverge => rw [e] at h; cases h
      | ok rs =>
        rw [e] at h
        simp only [Outcome.ok.injEq] at h
        cases us with
        | nil => cases h
        | cons u us =>
          simp only [List.map_cons, List.cons.injEq] at h
          obtain ⟨rfl, rfl⟩ := h
          obtain ⟨g1, g2, g3, g4, g5, g6, g7, g8⟩ := hspec
          obtain ⟨i1, i2⟩ := ih (pre ++ w) l1 (hat.reads hr) hinv1 e
          refine ⟨?_, g4, ?_, ?_, i2⟩
          · rw [hr.1, g2, i1]; rfl
          · intro he
            obtain ⟨k1, k2⟩ := g7 he
            exact ⟨k2, List.map_eq_nil_iff.1 (lexRest_sent k1 (hinv1 k1) e)⟩
          · intro he
            obtain ⟨k1, k2⟩ := processNextWithTrivia_scans hc h1 he
            exact ⟨k1, by rw [← i1]; exact k2⟩

theorem lexAll_scans (hc : c.Good) {src : Text} (hsh : ¬ HasShebang src) {us : List TokRef} (h : lexAll c src = .ok (us.map .ok)) :
    src = us.flatMap TokRef.display ∧ AllScan c us := by
  have hat0 := At.new src
  have : lexRest c (src.length + 3) (Lx.new src) = .ok (us.map .ok) := by
    unfold lexAll at h
    rw [processFirst_noShebang hsh] at h
    unfold lexRest
    cases e : processNextWithTrivia c (Lx.new src) with
    | panic => rw [e] at h; cases h
    | diverge => rw [e] at h; cases h
    | ok r =>
      obtain ⟨o, l⟩ := r
      rw [e] at h
      cases o with
      | none =>
        rcases processNextWithTrivia_spec hc hat0 (by simp [Lx.new]) with ⟨hp, _⟩ | ⟨o, l1, w, h1, hr, hinv1, hspec⟩
        · rw [hp] at e; cases e
        · rw [h1] at e; cases e; cases hspec.1
      | some r => exact h
  exact lexRest_scans hc _ [] _ hat0 (by simp [Lx.new]) this

theorem opensLong_mono {x r r' : Text} (h : opensLong r' = true → opensLong r = true) (h' : opensLong (x ++ r') = true) : opensLong (x ++ r) = true := by
  induction x with
  | nil => exact h h'
  | cons y x ih =>
    simp only [List.cons_append, opensLong] at h' ⊢
    split at h'
    · rename_i e; rw [if_pos e]; exact ih h'
    · rename_i e; rw [if_neg e]; exact h'

theorem gap_soft {f s : Text} (h : Gap c f) : Soft (f ++ s) ∧ opensLong (f ++ s) = false := by
  cases f with
  | nil => cases h.2
  | cons ch f =>
    have hb : IsBlank ch := by
      have := h.2
      simp only [startsWith, Bool.or_eq_true, beq_iff_eq] at this
      rcases this with ((h | h) | h) | h
      · exact .inl h
      · exact .inr (.inl h)
      · exact .inr (.inr (.inl h))
      · exact .inr (.inr (.inr h))
    refine ⟨.inl hb, ?_⟩
    rcases hb with rfl | rfl | rfl | rfl <;> rfl

theorem follows_gap {rest f s : Text} (h : Gap c f) : Follows rest (f ++ s) :=
  ⟨.inr (gap_soft h).1⟩

theorem long_gap {rest f s : Text} (h : Gap c f) (e : opensLong (f ++ s) = true) : opensLong rest = true := by
  rw [(gap_soft h).2] at e; cases e

theorem follows_nil {rest : Text} : Follows rest [] := ⟨.inr trivial⟩

end FM
