import Verif.Proofs.Respace

/-! Helper lemmas: the readers of words, strings and symbols depend only on what they consume and on what follows. -/

namespace FM
open Spec

variable {c : Cfg} {rest rest' : Text} {st st' p p' : Position}

/-- `Loc` for tokens that are not trivia. -/
def LocN (rest rest' : Text) (r r' : ReadRes) : Prop :=
  ∀ t, r.1 = .ok t → t.type.isTrivia = false → r.2.rest = rest → ∃ t', r'.1 = .ok t' ∧ t'.type = t.type ∧ r'.2.rest = rest'

theorem Loc.n {r r' : ReadRes} (h : Loc rest rest' r r') : LocN rest rest' r r' := fun t h1 _ h2 => h t h1 h2

theorem LocN.of_length {r r' : ReadRes} (h : r.2.rest.length < rest.length) : LocN rest rest' r r' := (Loc.of_length h).n

theorem LocN.symTok {y : Symbol} {s s' : Src} (h : s.rest = rest → s'.rest = rest') : LocN rest rest' (symTok st y s) (symTok st' y s') := by
  intro t ht _ hr
  cases ht
  exact ⟨_, rfl, rfl, h hr⟩

theorem append_eq_right {w : Text} (h : w ++ rest = rest) : w ++ rest' = rest' := by
  have : w = [] := by
    have := congrArg List.length h
    simpa using this
  simp [this]

theorem LocN.sym {y : Symbol} {w : Text} : LocN rest rest' (FM.symTok st y ⟨w ++ rest, p⟩) (FM.symTok st' y ⟨w ++ rest', p'⟩) :=
  .symTok append_eq_right

theorem LocN.symShort {y : Symbol} {s : Src} {r' : ReadRes} (h : s.rest.length < rest.length) : LocN rest rest' (FM.symTok st y s) r' :=
  .of_length h

theorem LocN.trivia {ty : TokenType} {b : Bool} {s : Src} {r' : ReadRes} (h : ty.isTrivia = true) :
    LocN rest rest' (commentToken st (ty, b, s)) r' := by
  intro t ht hn _
  cases b <;> simp only [commentToken, createRecovered, LexRes.new, if_true] at ht <;> cases ht
  simp [h] at hn

theorem LocN.consume {k : Char} (hk : ¬ IsSoft k) (hf : Follows rest rest') (w : Text) (p p' : Position) {A A' B B' : Src → ReadRes}
    (hA : ∀ w p p', LocN rest rest' (A ⟨w ++ rest, p⟩) (A' ⟨w ++ rest', p'⟩))
    (hE : ∀ (s : Src) y, s.rest.length < rest.length → LocN rest rest' (A s) y)
    (hB : LocN rest rest' (B ⟨w ++ rest, p⟩) (B' ⟨w ++ rest', p'⟩)) :
    LocN rest rest' (match (Src.mk (w ++ rest) p).consume k with | (true, s) => A s | (false, s) => B s)
      (match (Src.mk (w ++ rest') p').consume k with | (true, s) => A' s | (false, s) => B' s) := by
  cases w with
  | cons x w =>
    by_cases hx : x = k
    · subst hx
      simp only [Src.consume, Src.current, List.cons_append, List.head?_cons, if_true, Src.advance]
      exact hA _ _ _
    · simp only [Src.consume, Src.current, List.cons_append, List.head?_cons, Option.some.injEq, if_neg hx]
      exact hB
  | nil =>
    by_cases hr : rest.head? = some k
    · cases rest with
      | nil => cases hr
      | cons x r =>
        cases hr
        simp only [Src.consume, Src.current, List.nil_append, List.head?_cons, if_true, Src.advance]
        exact hE _ _ (Nat.lt_succ_self _)
    · have hr' : rest'.head? ≠ some k := by
        rcases hf.head with h | h
        · rw [h]; exact hr
        · cases rest' with
          | nil => nofun
          | cons x r =>
            intro e
            cases e
            exact hk h
      have e : (Src.mk ([] ++ rest) p).consume k = (false, ⟨[] ++ rest, p⟩) := if_neg hr
      have e' : (Src.mk ([] ++ rest') p').consume k = (false, ⟨[] ++ rest', p'⟩) := if_neg hr'
      simp only [e, e']
      exact hB

theorem consume_length {k : Char} {s : Src} {n : Nat} {A B : Src → ReadRes} (h : s.rest.length < n)
    (hA : ∀ s : Src, s.rest.length < n → (A s).2.rest.length < n) (hB : (B s).2.rest.length < n) :
    (match s.consume k with | (true, s) => A s | (false, s) => B s).2.rest.length < n := by
  unfold Src.consume
  split
  · rename_i s' e
    split at e <;> cases e
    refine hA _ ?_
    unfold Src.advance
    split
    · exact h
    · rename_i e
      rw [e] at h
      exact Nat.lt_of_succ_lt h
  · rename_i s' e
    split at e <;> cases e
    exact hB

/-! ## Words -/

theorem identLoop_loc (hf : Follows rest rest') (w : Text) (p p' : Position) (acc : Text)
    (h : (identLoop (w ++ rest) p acc).2.rest = rest) :
    (identLoop (w ++ rest') p' acc).1 = (identLoop (w ++ rest) p acc).1 ∧ (identLoop (w ++ rest') p' acc).2.rest = rest' := by
  induction w generalizing p p' acc with
  | nil =>
    have key : ∀ (l : Text) (p p' : Position) acc, (identLoop l p acc).2.rest = l → (identLoop l p acc).1 = acc := by
      intro l p p' acc h
      cases l with
      | nil => rfl
      | cons x r =>
        unfold identLoop at h ⊢
        split at h
        · obtain ⟨w, _, h2, _⟩ := identLoop_spec r (p.advance x) (acc ++ [x])
          have := h2.length
          rw [h] at this
          simp at this
          omega
        · rename_i hx
          rw [if_neg hx]
    have hh : headIs (fun ch => isIdentStart ch || isDigit ch) rest = false := by
      cases rest with
      | nil => rfl
      | cons x r =>
        simp only [List.nil_append] at h
        unfold identLoop at h
        split at h
        · obtain ⟨w, _, h2, _⟩ := identLoop_spec r (p.advance x) (acc ++ [x])
          have := h2.length
          rw [h] at this
          simp at this
          omega
        · rename_i hx
          exact Bool.eq_false_iff.2 hx
    have hh' : headIs (fun ch => isIdentStart ch || isDigit ch) rest' = false := by
      rcases hf.head with e | e
      · cases rest' with
        | nil => rfl
        | cons x r =>
          cases rest with
          | nil => cases e
          | cons y r =>
            cases e
            exact hh
      · cases rest' with
        | nil => rfl
        | cons x r =>
          rcases e with (rfl | rfl | rfl | rfl) | rfl | rfl | rfl | rfl | rfl | rfl <;> rfl
    simp only [List.nil_append] at *
    rw [key _ _ p' _ h]
    cases rest' with
    | nil => exact ⟨rfl, rfl⟩
    | cons x r =>
      unfold identLoop
      rw [if_neg (by simpa [headIs] using hh')]
      exact ⟨rfl, rfl⟩
  | cons x w ih =>
    simp only [List.cons_append, identLoop] at h ⊢
    split at h
    · rename_i hx
      simp only [if_pos hx]
      exact ih _ _ _ h
    · have := congrArg List.length h
      simp at this
      omega

theorem readIdent_loc (hf : Follows rest rest') (ch : Char) (w : Text) (p p' : Position) :
    LocN rest rest' (readIdent c st ch ⟨w ++ rest, p⟩) (readIdent c st' ch ⟨w ++ rest', p'⟩) := by
  intro t ht _ hr
  unfold readIdent at *
  simp only [create] at *
  cases ht
  obtain ⟨h1, h2⟩ := identLoop_loc hf w p p' [ch] hr
  exact ⟨_, rfl, by simp only; rw [h1], h2⟩

/-! ## Strings -/

theorem stringLoop_lt {q : Char} {l : Text} {p : Position} {lit : Text} {e z : Bool} (h : (stringLoop c q l p lit e z).2.1 = false) :
    (stringLoop c q l p lit e z).2.2.rest.length < l.length := by
  induction l generalizing p lit e z with
  | nil => cases h
  | cons x l ih =>
    unfold stringLoop at h ⊢
    split
    · rename_i hc; simp only [if_pos hc] at h; exact Nat.lt_succ_of_lt (ih h)
    · rename_i hc; simp only [if_neg hc] at h
      split
      · rename_i hc; simp only [if_pos hc] at h; exact Nat.lt_succ_of_lt (ih h)
      · rename_i hc; simp only [if_neg hc] at h
        split
        · rename_i hc; simp only [if_pos hc] at h; exact Nat.lt_succ_of_lt (ih h)
        · rename_i hc; simp only [if_neg hc] at h
          split
          · rename_i hc; simp only [if_pos hc] at h; exact Nat.lt_succ_of_lt (ih h)
          · rename_i hc; simp only [if_neg hc] at h
            split
            · rename_i hc; simp only [if_pos hc] at h; cases h
            · rename_i hc; simp only [if_neg hc] at h
              split
              · exact Nat.lt_succ_self _
              · rename_i hc; simp only [if_neg hc] at h; exact Nat.lt_succ_of_lt (ih h)

theorem stringLoop_loc (q : Char) (w : Text) (p p' : Position) (lit : Text) (e z : Bool)
    (h : (stringLoop c q (w ++ rest) p lit e z).2.1 = false) (hr : (stringLoop c q (w ++ rest) p lit e z).2.2.rest = rest) (hw : w ≠ []) :
    (stringLoop c q (w ++ rest') p' lit e z).1 = (stringLoop c q (w ++ rest) p lit e z).1 ∧
    (stringLoop c q (w ++ rest') p' lit e z).2.1 = false ∧ (stringLoop c q (w ++ rest') p' lit e z).2.2.rest = rest' := by
  induction w generalizing p p' lit e z with
  | nil => exact absurd rfl hw
  | cons x w ih =>
    have step : ∀ lit e z, (stringLoop c q (w ++ rest) (p.advance x) lit e z).2.1 = false →
        (stringLoop c q (w ++ rest) (p.advance x) lit e z).2.2.rest = rest →
        (stringLoop c q (w ++ rest') (p'.advance x) lit e z).1 = (stringLoop c q (w ++ rest) (p.advance x) lit e z).1 ∧
        (stringLoop c q (w ++ rest') (p'.advance x) lit e z).2.1 = false ∧
        (stringLoop c q (w ++ rest') (p'.advance x) lit e z).2.2.rest = rest' := by
      intro lit e z h hr
      refine ih _ _ _ _ _ h hr ?_
      rintro rfl
      have := stringLoop_lt (l := rest) h
      simp only [List.nil_append] at hr
      rw [hr] at this
      exact absurd this (Nat.lt_irrefl _)
    simp only [List.cons_append] at h hr ⊢
    unfold stringLoop at h hr ⊢
    split
    · rename_i hc; simp only [if_pos hc] at h hr; exact step _ _ _ h hr
    · rename_i hc; simp only [if_neg hc] at h hr
      split
      · rename_i hc; simp only [if_pos hc] at h hr; exact step _ _ _ h hr
      · rename_i hc; simp only [if_neg hc] at h hr
        split
        · rename_i hc; simp only [if_pos hc] at h hr; exact step _ _ _ h hr
        · rename_i hc; simp only [if_neg hc] at h hr
          split
          · rename_i hc; simp only [if_pos hc] at h hr; exact step _ _ _ h hr
          · rename_i hc; simp only [if_neg hc] at h hr
            split
            · rename_i hc; simp only [if_pos hc] at h; cases h
            · rename_i hc; simp only [if_neg hc] at h hr
              split
              · rename_i hc; simp only [if_pos hc] at h hr
                exact ⟨rfl, rfl, append_eq_right hr⟩
              · rename_i hc; simp only [if_neg hc] at h hr; exact step _ _ _ h hr

theorem readString_loc {q : Char} {w : Text} {p p' : Position} {r : ReadRes} {t : Token}
    (h : readString c st q ⟨w ++ rest, p⟩ = .ok r) (ht : r.1 = .ok t) (hr : r.2.rest = rest) :
    ∃ r' t', readString c st' q ⟨w ++ rest', p'⟩ = .ok r' ∧ r'.1 = .ok t' ∧ t'.type = t.type ∧ r'.2.rest = rest' := by
  unfold readString at *
  cases hq : quoteType c q with
  | none => rw [hq] at h; cases h
  | some qt =>
    rw [hq] at h
    simp only [Outcome.ok.injEq] at h ⊢
    subst h
    have hz : (stringLoop c q (w ++ rest) p [] false false).2.1 = false := by
      cases hb : (stringLoop c q (w ++ rest) p [] false false).2.1 with
      | false => rfl
      | true =>
        simp only [hb, if_true, createRecovered_cons] at ht
        cases ht
    simp only [hz, Bool.false_eq_true, if_false, createRecovered_nil] at ht hr
    have hw : w ≠ [] := by
      rintro rfl
      have := stringLoop_lt (l := rest) hz
      simp only [create, List.nil_append] at hr
      rw [hr] at this
      exact absurd this (Nat.lt_irrefl _)
    obtain ⟨h1, h2, h3⟩ := stringLoop_loc (rest' := rest') q w p p' [] false false hz hr hw
    cases ht
    simp only [h2, Bool.false_eq_true, if_false, createRecovered_nil]
    exact ⟨_, _, rfl, rfl, by simp only [h1], h3⟩

/-! ## Long brackets -/

theorem closesFirst_suffix {n : Nat} {a b : Text} (h : ClosesFirst (closeBracket n) (a ++ b)) : ClosesFirst (closeBracket n) b := by
  intro u v e
  have := h (a ++ u) v (by rw [List.append_assoc, e]; simp)
  exact ⟨List.append_cancel_left this.1, this.2⟩

theorem replicate_split {k : Nat} {s body z : Text} (h : List.replicate k '=' ++ s = body ++ ']' :: z) :
    ∃ b, body = List.replicate k '=' ++ b ∧ s = b ++ ']' :: z := by
  induction k generalizing body with
  | zero => exact ⟨body, rfl, h⟩
  | succ k ih =>
    cases body with
    | nil => cases h
    | cons x body =>
      simp only [List.replicate_succ, List.cons_append, List.cons.injEq] at h
      obtain ⟨rfl, h⟩ := h
      obtain ⟨b, rfl, hs⟩ := ih h
      exact ⟨b, rfl, hs⟩

theorem closeEqLoop_all (n : Nat) (l : Text) (p : Position) : (closeEqLoop n (List.replicate n '=' ++ l) p).1 = n ∧ (closeEqLoop n (List.replicate n '=' ++ l) p).2.rest = l := by
  induction n generalizing p with
  | zero => exact ⟨rfl, rfl⟩
  | succ n ih =>
    simp only [List.replicate_succ, List.cons_append, closeEqLoop, if_true]
    exact ⟨congrArg (· + 1) (ih _).1, (ih _).2⟩

theorem bodyLoop_complete {n : Nat} (fuel : Nat) (body : Text) (p : Position) (acc : Text) (hf : (body ++ closeBracket n ++ rest).length ≤ fuel)
    (h : ClosesFirst (closeBracket n) body) :
    (bodyLoop n fuel (body ++ closeBracket n ++ rest) p acc).1 = .ok n (acc ++ body) ∧
    (bodyLoop n fuel (body ++ closeBracket n ++ rest) p acc).2.rest = rest := by
  induction fuel generalizing body p acc with
  | zero => simp [closeBracket] at hf
  | succ fuel ih =>
    cases body with
    | nil =>
      have e : ([] : Text) ++ closeBracket n ++ rest = ']' :: (List.replicate n '=' ++ ']' :: rest) := by simp [closeBracket]
      obtain ⟨h1, h2⟩ := closeEqLoop_all n (']' :: rest) (p.advance ']')
      rw [e]
      unfold bodyLoop
      simp only [if_true, h1, Nat.lt_irrefl, if_false, Src.current, h2, List.head?_cons, Src.advance]
      simp
    | cons x body =>
      by_cases hx : x = ']'
      · subst hx
        obtain ⟨hk, hreads, hhead⟩ := closeEqLoop_spec n (body ++ closeBracket n ++ rest) (p.advance ']')
        have hsplit : List.replicate (closeEqLoop n (body ++ closeBracket n ++ rest) (p.advance ']')).1 '=' ++
            (closeEqLoop n (body ++ closeBracket n ++ rest) (p.advance ']')).2.rest = body ++ ']' :: (List.replicate n '=' ++ ']' :: rest) := by
          have := hreads.1
          simp only at this
          rw [← this]
          simp [closeBracket]
        obtain ⟨b, hb, hs⟩ := replicate_split hsplit
        have hs' : (closeEqLoop n (body ++ closeBracket n ++ rest) (p.advance ']')).2.rest = b ++ closeBracket n ++ rest := by
          rw [hs]; simp [closeBracket]
        simp only [List.cons_append]
        unfold bodyLoop
        simp only [if_true]
        generalize hkk : (closeEqLoop n (body ++ closeBracket n ++ rest) (p.advance ']')).1 = k at *
        generalize hss : (closeEqLoop n (body ++ closeBracket n ++ rest) (p.advance ']')).2 = s at *
        subst hb
        have h' : ClosesFirst (closeBracket n) b := closesFirst_suffix (a := ']' :: List.replicate k '=') (by simpa using h)
        have hlen : (b ++ closeBracket n ++ rest).length ≤ fuel := by
          simp only [List.cons_append, List.append_assoc, List.length_cons, List.length_append] at hf ⊢
          omega
        have cont := ih b s.pos (acc ++ ']' :: List.replicate k '=') hlen h'
        rw [hs']
        have fin : (bodyLoop n fuel (b ++ closeBracket n ++ rest) s.pos (acc ++ ']' :: List.replicate k '=')).1 =
            .ok n (acc ++ ']' :: (List.replicate k '=' ++ b)) ∧
            (bodyLoop n fuel (b ++ closeBracket n ++ rest) s.pos (acc ++ ']' :: List.replicate k '=')).2.rest = rest := by
          refine ⟨?_, cont.2⟩
          rw [cont.1]
          simp
        split
        · exact fin
        · split
          · rename_i hlt hcur
            exfalso
            have hkn : k = n := by omega
            subst hkn
            simp only [Src.current, hs'] at hcur
            have : ∃ v, b ++ closeBracket k = ']' :: v := by
              cases b with
              | nil => exact ⟨_, rfl⟩
              | cons y b =>
                simp only [List.cons_append, List.head?_cons, Option.some.injEq] at hcur
                subst hcur
                exact ⟨_, rfl⟩
            obtain ⟨v, hv⟩ := this
            have := h [] v (by simp only [List.cons_append, List.append_assoc, hv, List.nil_append]; simp [closeBracket])
            cases this.1
          · exact fin
      · simp only [List.cons_append]
        unfold bodyLoop
        rw [if_neg hx]
        have := ih body (p.advance x) (acc ++ [x]) (by simpa using hf) (closesFirst_suffix (a := [x]) h)
        refine ⟨?_, this.2⟩
        rw [this.1]
        simp

theorem eqLoop_all (n m : Nat) (l : Text) (p : Position) (h : l.head? ≠ some '=') :
    (eqLoop (List.replicate n '=' ++ l) p m).1 = m + n ∧ (eqLoop (List.replicate n '=' ++ l) p m).2.rest = l := by
  induction n generalizing p m with
  | zero =>
    cases l with
    | nil => exact ⟨rfl, rfl⟩
    | cons x l =>
      have : x ≠ '=' := fun e => h (by rw [e]; rfl)
      simp only [List.replicate_zero, List.nil_append, eqLoop, if_neg this]
      exact ⟨rfl, trivial⟩
  | succ n ih =>
    simp only [List.replicate_succ, List.cons_append, eqLoop, if_true]
    refine ⟨?_, (ih _ _).2⟩
    rw [(ih _ _).1]
    omega

theorem readMultiLineBody_complete {n : Nat} {body : Text} (p : Position) (h : ClosesFirst (closeBracket n) body) :
    (readMultiLineBody ⟨List.replicate n '=' ++ ['['] ++ body ++ closeBracket n ++ rest, p⟩).1 = .ok n body ∧
    (readMultiLineBody ⟨List.replicate n '=' ++ ['['] ++ body ++ closeBracket n ++ rest, p⟩).2.rest = rest := by
  have e : List.replicate n '=' ++ ['['] ++ body ++ closeBracket n ++ rest = List.replicate n '=' ++ ('[' :: (body ++ closeBracket n ++ rest)) := by simp
  obtain ⟨h1, h2⟩ := eqLoop_all n 0 ('[' :: (body ++ closeBracket n ++ rest)) p (by simp)
  unfold readMultiLineBody
  simp only [e]
  generalize eqLoop _ _ _ = r at *
  obtain ⟨k, s, q⟩ := r
  simp only [Nat.zero_add] at h1 h2
  subst h1 h2
  simp only [Src.current, List.head?_cons, if_true, Src.advance]
  have := bodyLoop_complete (rest := rest) (body ++ closeBracket k ++ rest).length body (q.advance '[') [] (Nat.le_refl _) h
  simpa using this

theorem eqLoop_opens (l : Text) (p : Position) (n : Nat) : ((eqLoop l p n).2.rest.head? = some '[') ↔ opensLong l = true := by
  induction l generalizing p n with
  | nil => simp [eqLoop, opensLong]
  | cons x l ih =>
    unfold eqLoop opensLong
    split
    · exact ih _ _
    · simp

theorem readMultiLineBody_not {s : Src} (h : opensLong s.rest = false) : ∃ n, (readMultiLineBody s).1 = .notMultiLine n := by
  unfold readMultiLineBody
  have := eqLoop_opens s.rest s.pos 0
  rw [h] at this
  have hc : ¬ (eqLoop s.rest s.pos 0).2.current = some '[' := by simpa [Src.current] using this
  simp only
  rw [if_neg hc]
  exact ⟨_, rfl⟩

theorem readMultiLineBody_opens {s : Src} {n : Nat} (h : opensLong s.rest = true) : (readMultiLineBody s).1 ≠ .notMultiLine n := by
  unfold readMultiLineBody
  have hc : (eqLoop s.rest s.pos 0).2.current = some '[' := (eqLoop_opens s.rest s.pos 0).2 h
  simp only
  rw [if_pos hc]
  rcases bodyLoop_spec (eqLoop s.rest s.pos 0).1 (eqLoop s.rest s.pos 0).2.advance.rest.length (eqLoop s.rest s.pos 0).2.advance.rest
    (eqLoop s.rest s.pos 0).2.advance.pos [] (Nat.le_refl _) with ⟨w, e, _⟩ | ⟨w, e, _⟩ <;> rw [e] <;> nofun

theorem readLeftBracket_sym {s : Src} (h : opensLong s.rest = false) : readLeftBracket st s = symTok st .leftBracket s := by
  unfold readLeftBracket
  split
  · obtain ⟨n, e⟩ := readMultiLineBody_not h
    generalize readMultiLineBody s = r at *
    obtain ⟨r, q⟩ := r
    simp only at e
    subst e
    rfl
  · rfl

theorem readLeftBracket_loc (w : Text) (hlong : w = [] → opensLong rest' = true → opensLong rest = true) (p p' : Position) :
    LocN rest rest' (readLeftBracket st ⟨w ++ rest, p⟩) (readLeftBracket st' ⟨w ++ rest', p'⟩) := by
  intro t ht hn hr
  cases ho : opensLong (w ++ rest) with
  | false =>
    rw [readLeftBracket_sym ho] at ht hr
    have hw : w = [] := by simpa [symTok, create] using congrArg List.length hr
    subst hw
    have : opensLong rest' = false := by
      cases h : opensLong rest' with
      | false => rfl
      | true =>
        rw [List.nil_append, hlong rfl h] at ho
        cases ho
    rw [readLeftBracket_sym (s := ⟨[] ++ rest', p'⟩) this]
    exact LocN.sym t ht hn hr
  | true =>
    have hc : ∀ (q : Text) (p : Position), opensLong q = true → (Src.mk q p).current = some '[' ∨ (Src.mk q p).current = some '=' := by
      intro q p h
      cases q with
      | nil => cases h
      | cons x q =>
        unfold opensLong at h
        split at h
        · rename_i e; right; rw [e]; rfl
        · left; simpa [Src.current] using h
    unfold readLeftBracket at ht hr
    rw [if_pos (hc _ _ ho)] at ht hr
    rcases readMultiLineBody_spec ⟨w ++ rest, p⟩ with ⟨n, body, e1, e2, e3⟩ | ⟨n, body, e1, e2, e3⟩ | ⟨n, e1, _⟩
    · generalize readMultiLineBody ⟨w ++ rest, p⟩ = r at *
      obtain ⟨r, q⟩ := r
      simp only at e1 hr ht e2
      subst e1
      simp only [create] at ht hr
      cases ht
      have hw : w = List.replicate n '=' ++ ['['] ++ body ++ closeBracket n := by
        have := e2.1
        simp only [hr] at this
        exact List.append_cancel_right this
      subst hw
      obtain ⟨d1, d2⟩ := readMultiLineBody_complete (rest := rest') p' e3
      unfold readLeftBracket
      have ho' : opensLong (List.replicate n '=' ++ ['['] ++ body ++ closeBracket n ++ rest') = true := by
        cases h : opensLong (List.replicate n '=' ++ ['['] ++ body ++ closeBracket n ++ rest') with
        | true => rfl
        | false =>
          obtain ⟨m, e⟩ := readMultiLineBody_not (s := ⟨_, p'⟩) h
          rw [d1] at e
          cases e
      rw [if_pos (hc _ _ ho')]
      generalize readMultiLineBody ⟨List.replicate n '=' ++ ['['] ++ body ++ closeBracket n ++ rest', p'⟩ = r at *
      obtain ⟨r, q'⟩ := r
      simp only at d1 d2
      subst d1
      exact ⟨_, rfl, rfl, d2⟩
    · generalize readMultiLineBody ⟨w ++ rest, p⟩ = r at *
      obtain ⟨r, q⟩ := r
      simp only at e1
      subst e1
      simp only [createRecovered_cons] at ht
      cases ht
    · exact absurd e1 (readMultiLineBody_opens ho)

/-! ## Symbols -/

theorem not_blank {k : Char} (h : (k == ' ' || k == '\t' || k == '\r' || k == '\n' || k == ',' || k == ';' || k == '(' || k == ')' || k == '{' || k == '}') = false) : ¬ IsSoft k := by
  rintro ((rfl | rfl | rfl | rfl) | rfl | rfl | rfl | rfl | rfl | rfl) <;> cases h

theorem readEqual_loc (hf : Follows rest rest') (w : Text) (p p' : Position) :
    LocN rest rest' (readEqual st ⟨w ++ rest, p⟩) (readEqual st' ⟨w ++ rest', p'⟩) :=
  .consume (not_blank rfl) hf w p p' (fun _ _ _ => .sym) (fun _ _ h => .symShort h) .sym

theorem readTilde_loc (hf : Follows rest rest') (w : Text) (p p' : Position) :
    LocN rest rest' (readTilde c st ⟨w ++ rest, p⟩) (readTilde c st' ⟨w ++ rest', p'⟩) := by
  unfold readTilde
  refine .consume (not_blank rfl) hf w p p' (fun _ _ _ => .sym) (fun _ _ h => .symShort h) ?_
  split
  · exact .sym
  · nofun

theorem readGated_loc (hf : Follows rest rest') {vs : List Ver} {k : Char} (hk : ¬ IsSoft k) {y z : Symbol} (w : Text) (p p' : Position) :
    LocN rest rest' (readGated c vs k y z st ⟨w ++ rest, p⟩) (readGated c vs k y z st' ⟨w ++ rest', p'⟩) := by
  unfold readGated
  split
  · exact .consume hk hf w p p' (fun _ _ _ => .sym) (fun _ _ h => .symShort h) .sym
  · exact .sym

theorem LocN.consume_sym {y z : Symbol} {k : Char} (hk : ¬ IsSoft k) (hf : Follows rest rest') (w : Text) (p p' : Position) :
    LocN rest rest' (match (Src.mk (w ++ rest) p).consume k with | (true, s) => FM.symTok st y s | (false, s) => FM.symTok st z s)
      (match (Src.mk (w ++ rest') p').consume k with | (true, s) => FM.symTok st' y s | (false, s) => FM.symTok st' z s) :=
  .consume hk hf w p p' (fun _ _ _ => .sym) (fun _ _ h => .symShort h) .sym

theorem LocN.consume_symShort {y z : Symbol} {k : Char} {s : Src} {r' : ReadRes} (h : s.rest.length < rest.length) :
    LocN rest rest' (match s.consume k with | (true, s) => FM.symTok st y s | (false, s) => FM.symTok st z s) r' :=
  .of_length (consume_length h (fun _ h => h) h)

theorem readSlash_loc (hf : Follows rest rest') (w : Text) (p p' : Position) :
    LocN rest rest' (readSlash c st ⟨w ++ rest, p⟩) (readSlash c st' ⟨w ++ rest', p'⟩) := by
  unfold readSlash
  split
  · refine .consume (not_blank rfl) hf w p p' ?_ ?_ ?_
    · intro w p p'
      cases c.hasAny [.luau]
      · exact .sym
      · exact .consume_sym (not_blank rfl) hf w p p'
    · intro s y h
      cases c.hasAny [.luau]
      · exact .symShort h
      · exact .consume_symShort h
    · have star : LocN rest rest'
          (match (if c.hasAny [.cfxlua] then (Src.mk (w ++ rest) p).consume '*' else (false, ⟨w ++ rest, p⟩)) with
            | (true, s) => commentToken st (.cStyleComment (cStyleLoop s.rest s.pos []).1, (cStyleLoop s.rest s.pos []).2.1, (cStyleLoop s.rest s.pos []).2.2)
            | (false, s) => FM.symTok st .slash s)
          (match (if c.hasAny [.cfxlua] then (Src.mk (w ++ rest') p').consume '*' else (false, ⟨w ++ rest', p'⟩)) with
            | (true, s) => commentToken st' (.cStyleComment (cStyleLoop s.rest s.pos []).1, (cStyleLoop s.rest s.pos []).2.1, (cStyleLoop s.rest s.pos []).2.2)
            | (false, s) => FM.symTok st' .slash s) := by
        cases c.hasAny [.cfxlua]
        · exact .sym
        · exact .consume (not_blank rfl) hf w p p' (fun _ _ _ => .trivia rfl) (fun _ _ _ => .trivia rfl) .sym
      cases c.hasAny [.luau, .cfxlua]
      · exact star
      · exact .consume (not_blank rfl) hf w p p' (fun _ _ _ => .sym) (fun _ _ h => .symShort h) star
  · exact .sym

theorem readAngle_loc (hf : Follows rest rest') {k : Char} (hk : ¬ IsSoft k) {a b d e : Symbol} (w : Text) (p p' : Position) :
    LocN rest rest' (readAngle c k a b d e st ⟨w ++ rest, p⟩) (readAngle c k a b d e st' ⟨w ++ rest', p'⟩) := by
  unfold readAngle
  split
  · refine .consume hk hf w p p' ?_ ?_ ?_
    · intro w p p'
      cases c.hasAny [.cfxlua]
      · exact .sym
      · exact .consume_sym (not_blank rfl) hf w p p'
    · intro s y h
      cases c.hasAny [.cfxlua]
      · exact .symShort h
      · exact .consume_symShort h
    · exact .consume_sym (not_blank rfl) hf w p p'
  · exact .consume_sym (not_blank rfl) hf w p p'

theorem readDot_loc (hf : Follows rest rest') (w : Text) (p p' : Position) :
    LocN rest rest' (readDot c st ⟨w ++ rest, p⟩) (readDot c st' ⟨w ++ rest', p'⟩) := by
  unfold readDot
  refine .consume (not_blank rfl) hf w p p' ?_ ?_ ?_
  · intro w p p'
    refine .consume (not_blank rfl) hf w p p' (fun _ _ _ => .sym) (fun _ _ h => .symShort h) ?_
    cases c.hasAny [.luau]
    · exact .sym
    · exact .consume_sym (not_blank rfl) hf w p p'
  · intro s y h
    refine .of_length (consume_length h (fun _ h => h) ?_)
    cases c.hasAny [.luau]
    · exact h
    · exact consume_length h (fun _ h => h) h
  · cases w with
    | cons x w =>
      change LocN rest rest' (if isDigit x = true then _ else _) (if isDigit x = true then _ else _)
      split
      · exact (numberLoop_loc hf (x :: w) _ _ _ _).n
      · exact .sym
    | nil =>
      have key : ∀ l : Text, (if headIs isDigit l = true then readNumber c st' ['.'] ⟨l, p'⟩ else FM.symTok st' .dot ⟨l, p'⟩) =
        (if headIs isDigit l = true then readNumber c st' ['.'] ⟨l, p'⟩ else FM.symTok st' .dot ⟨l, p'⟩) := fun _ => rfl
      by_cases hd : headIs isDigit rest = true
      · intro t ht hn hr
        simp only [List.nil_append, if_pos hd] at ht hr
        cases rest with
        | nil => cases hd
        | cons x r =>
          have hx : isDigit x = true := hd
          unfold readNumber numberLoop at hr
          simp only [hx, Bool.true_or, if_true] at hr
          have := numberLoop_len (c := c) (st := st) r (p.advance x) (['.'] ++ [x]) false
          rw [hr] at this
          simp at this
          omega
      · have hd' : ¬ headIs isDigit rest' = true := by
          rcases hf.head with e | e
          · cases rest' with
            | nil => nofun
            | cons x r =>
              cases rest with
              | nil => cases e
              | cons y r' =>
                cases e
                exact hd
          · cases rest' with
            | nil => nofun
            | cons x r => rcases e with (rfl | rfl | rfl | rfl) | rfl | rfl | rfl | rfl | rfl | rfl <;> (intro h; cases h)
        simp only [List.nil_append, if_neg hd, if_neg hd']
        exact LocN.sym (w := [])

theorem readComment_trivia (s : Src) : (readComment s).1.isTrivia = true := by
  unfold readComment
  split
  · split <;> rfl
  · rfl

theorem readMinusRest_loc (hf : Follows rest rest') (w : Text) (p p' : Position) :
    LocN rest rest' (readMinusRest st ⟨w ++ rest, p⟩) (readMinusRest st' ⟨w ++ rest', p'⟩) :=
  .consume (not_blank rfl) hf w p p' (fun _ _ _ => .trivia (readComment_trivia _)) (fun _ _ _ => .trivia (readComment_trivia _)) .sym

theorem readMinus_loc (hf : Follows rest rest') (w : Text) (p p' : Position) :
    LocN rest rest' (readMinus c st ⟨w ++ rest, p⟩) (readMinus c st' ⟨w ++ rest', p'⟩) := by
  unfold readMinus
  split
  · refine .consume (not_blank rfl) hf w p p' (fun _ _ _ => .sym) (fun _ _ h => .symShort h) ?_
    cases c.hasAny [.luau]
    · exact readMinusRest_loc hf w p p'
    · exact .consume (not_blank rfl) hf w p p' (fun _ _ _ => .sym) (fun _ _ h => .symShort h) (readMinusRest_loc hf w p p')
  · exact readMinusRest_loc hf w p p'

theorem readOther_loc (hf : Follows rest rest') (ch : Char) (w : Text) (p p' : Position) :
    LocN rest rest' (readOther c st ch ⟨w ++ rest, p⟩) (readOther c st' ch ⟨w ++ rest', p'⟩) := by
  have key : ∀ {a : Char} {k : Char} {y : Symbol} {B B' : ReadRes}, ¬ IsSoft k → LocN rest rest' B B' →
      LocN rest rest' (if ch = a ∧ c.cfxlua = true ∧ (Src.mk (w ++ rest) p).current = some k then FM.symTok st y (Src.mk (w ++ rest) p).advance else B)
        (if ch = a ∧ c.cfxlua = true ∧ (Src.mk (w ++ rest') p').current = some k then FM.symTok st' y (Src.mk (w ++ rest') p').advance else B') := by
    intro a k y B B' hk hB
    by_cases h : ch = a ∧ c.cfxlua = true
    · have := LocN.consume (A := FM.symTok st y) (A' := FM.symTok st' y) (B := fun _ => B) (B' := fun _ => B') hk hf w p p'
        (fun _ _ _ => .sym) (fun _ _ h => .symShort h) hB
      unfold Src.consume at this
      by_cases e : (Src.mk (w ++ rest) p).current = some k <;> by_cases e' : (Src.mk (w ++ rest') p').current = some k <;>
        simp only [e, e', if_true, if_false, h.1, h.2, and_true, and_false] at this ⊢ <;> exact this
    · rw [if_neg (fun e => h ⟨e.1, e.2.1⟩), if_neg (fun e => h ⟨e.1, e.2.1⟩)]
      exact hB
  unfold readOther
  refine key (not_blank rfl) (key (not_blank rfl) (key (not_blank rfl) ?_))
  split
  · exact .sym
  · split
    · exact .sym
    · split
      · exact .sym
      · split
        · exact .sym
        · nofun

/-! ## Any token -/

theorem LocN.ite {P : Prop} [Decidable P] {A A' B B' : ReadRes} (h : LocN rest rest' A A') (h' : LocN rest rest' B B') :
    LocN rest rest' (if P then A else B) (if P then A' else B') := by
  split
  · exact h
  · exact h'

theorem LocN.ite_of {P : Prop} [Decidable P] {A A' B B' : ReadRes} (h : P → LocN rest rest' A A') (h' : LocN rest rest' B B') :
    LocN rest rest' (if P then A else B) (if P then A' else B') := by
  split
  · rename_i e; exact h e
  · exact h'

theorem readPlain_loc (hf : Follows rest rest') (ch : Char) (w : Text) (hlong : ch :: w = ['['] → opensLong rest' = true → opensLong rest = true) (p p' : Position) :
    LocN rest rest' (readPlain c st ch ⟨w ++ rest, p⟩) (readPlain c st' ch ⟨w ++ rest', p'⟩) := by
  unfold readPlain
  refine .ite (readIdent_loc hf ch w p p') ?_
  refine .ite (by intro t ht hn; cases ht; cases hn) ?_
  refine .ite ((readZero_loc hf w p p').n) ?_
  refine .ite ((numberLoop_loc hf w p p' _ _).n) ?_
  refine .ite (readEqual_loc hf w p p') ?_
  refine .ite (readTilde_loc hf w p p') ?_
  refine .ite (by intro t ht hn; cases ht; cases hn) ?_
  refine .ite .sym ?_
  refine .ite .sym ?_
  refine .ite_of (fun e => readLeftBracket_loc w (fun h => hlong (by rw [e, h])) p p') ?_
  refine .ite .sym ?_
  refine .ite (readGated_loc hf (not_blank rfl) w p p') ?_
  refine .ite .sym ?_
  refine .ite (readGated_loc hf (not_blank rfl) w p p') ?_
  refine .ite (readGated_loc hf (not_blank rfl) w p p') ?_
  refine .ite (readSlash_loc hf w p p') ?_
  refine .ite (readGated_loc hf (not_blank rfl) w p p') ?_
  refine .ite (readGated_loc hf (not_blank rfl) w p p') ?_
  refine .ite .sym ?_
  refine .ite (readAngle_loc hf (not_blank rfl) w p p') ?_
  refine .ite (readAngle_loc hf (not_blank rfl) w p p') ?_
  refine .ite (readDot_loc hf w p p') ?_
  refine .ite (readMinus_loc hf w p p') ?_
  refine .ite .sym ?_
  exact readOther_loc hf ch w p p'

theorem processNext_loc (hf : Follows rest rest') {w : Text} (hlong : w = ['['] → opensLong rest' = true → opensLong rest = true) {b b' : Bool} {bs bs' : List BraceType} {t : Token} {l' : Lx}
    (hbs : BraceType.interpolatedString ∉ bs')
    (h : processNext c ⟨⟨w ++ rest, p⟩, b, bs⟩ = .ok (some (.ok t), l')) (hw : w ≠ []) (hr : l'.src.rest = rest)
    (hn : t.type.isTrivia = false) (hi : ∀ x k, t.type ≠ .interpolated x k) :
    ∃ t' l'', processNext c ⟨⟨w ++ rest', p'⟩, b', bs'⟩ = .ok (some (.ok t'), l'') ∧ t'.type = t.type ∧ l''.src.rest = rest' ∧
      l''.sentEof = b' ∧ BraceType.interpolatedString ∉ l''.braces := by
  cases w with
  | nil => exact absurd rfl hw
  | cons ch w =>
    unfold processNext at *
    simp only [List.cons_append] at *
    split at h
    · rename_i hq
      rw [if_pos hq]
      split at h
      · rename_i hl
        exfalso
        revert h
        unfold readSection
        split <;> (intro h; cases h)
        · exact hi _ _ rfl
        · exact hi _ _ rfl
      · rename_i hl
        rw [if_neg hl]
        cases e : readString c p ch ⟨w ++ rest, p.advance ch⟩ with
        | panic => rw [e] at h; cases h
        | diverge => rw [e] at h; cases h
        | ok r =>
          rw [e] at h
          simp only [Outcome.bind, Lx.finish, Outcome.ok.injEq, Prod.mk.injEq, Option.some.injEq] at h
          obtain ⟨h1, rfl⟩ := h
          obtain ⟨r', t', e1, e2, e3, e4⟩ := readString_loc (rest' := rest') (st' := p') (p' := p'.advance ch) e h1 hr
          rw [e1]
          exact ⟨t', _, by simp only [Outcome.bind, Lx.finish, e2]; rfl, e3, e4, rfl, hbs⟩
    · rename_i hq
      rw [if_neg hq]
      split at h
      · rename_i hb
        rw [if_pos hb]
        simp only [Outcome.ok.injEq, Lx.finish, Prod.mk.injEq, Option.some.injEq] at h
        obtain ⟨h1, rfl⟩ := h
        obtain ⟨t', e1, e2, e3⟩ := LocN.sym (rest' := rest') (st' := p') (p' := p'.advance ch) t h1 hn hr
        exact ⟨t', _, by simp only [Lx.finish, e1]; rfl, e2, e3, rfl, by dsimp only; split <;> simp [hbs]⟩
      · rename_i hb
        rw [if_neg hb]
        split at h
        · rename_i hb2
          rw [if_pos hb2]
          split at h
          · rename_i hl
            rw [if_pos hl]
            split at h
            · exfalso
              revert h
              unfold readSection
              split <;> (intro h; cases h)
              · exact hi _ _ rfl
              · exact hi _ _ rfl
            · rename_i hin
              have hin' : ¬ bs'.head? = some .interpolatedString := by
                exact fun e2 => hbs (List.mem_of_mem_head? e2)
              rw [if_neg hin']
              simp only [Outcome.ok.injEq, Lx.finish, Prod.mk.injEq, Option.some.injEq] at h
              obtain ⟨h1, rfl⟩ := h
              obtain ⟨t', e1, e2, e3⟩ := LocN.sym (rest' := rest') (st' := p') (p' := p'.advance ch) t h1 hn hr
              exact ⟨t', _, by simp only [Lx.finish, e1]; rfl, e2, e3, rfl, fun e => hbs (List.mem_of_mem_tail e)⟩
          · rename_i hl
            rw [if_neg hl]
            simp only [Outcome.ok.injEq, Lx.finish, Prod.mk.injEq, Option.some.injEq] at h
            obtain ⟨h1, rfl⟩ := h
            obtain ⟨t', e1, e2, e3⟩ := LocN.sym (rest' := rest') (st' := p') (p' := p'.advance ch) t h1 hn hr
            exact ⟨t', _, by simp only [Lx.finish, e1]; rfl, e2, e3, rfl, hbs⟩
        · rename_i hb2
          rw [if_neg hb2]
          simp only [Outcome.ok.injEq, Lx.finish, Prod.mk.injEq, Option.some.injEq] at h
          obtain ⟨h1, rfl⟩ := h
          obtain ⟨t', e1, e2, e3⟩ := readPlain_loc (st' := p') hf ch w hlong _ (p'.advance ch) t h1 hn hr
          exact ⟨t', _, by simp only [Lx.finish, e1]; rfl, e2, e3, rfl, hbs⟩

end FM
