import Verif.Proofs.Parser.FormatStmt

/-! Helper lemmas: the result of parsing does not depend on trivia and positions. -/

namespace FM.Parser.Format
open FM.Spec FM.Parser

variable {c : Cfg}

theorem recSim_parsers (n : Nat) : RecSim (parsers c n) := by
  induction n with
  | zero => exact ⟨sim_diverge, sim_diverge, sim_diverge, fun _ _ => sim_diverge, sim_diverge, sim_diverge⟩
  | succ n ih =>
    exact ⟨sim_parseBlock ih, sim_parseExpression ih, sim_parsePrimary ih, fun _ h => sim_parseClimb ih h, sim_parseType ih,
      sim_parseTypeOrPack ih⟩

theorem sim_topBlock : Sim (topBlock c) (topBlock c) := by
  intro ts ts' h
  unfold topBlock
  rw [length_of_strip h]
  exact (recSim_parsers _).block ts ts' h

instance : Strip Step := ⟨fun
  | .stop s => .stop ⟨strip s.val, strip s.toks, strip s.errs, s.silent⟩
  | .next s => .next ⟨strip s.val, strip s.toks, strip s.errs, s.silent⟩⟩
instance : Strip (Run Blk) := ⟨fun s => ⟨strip s.val, strip s.toks, strip s.errs, s.silent⟩⟩
instance : Strip AstResult := ⟨plainResult⟩
instance {α : Type} [Strip α] : Strip (Outcome α) := ⟨fun
  | .ok r => .ok (strip r)
  | .panic => .panic
  | .diverge => .diverge⟩

theorem strip_step_stop (s : St) : strip (Step.stop s) = .stop (strip s) := rfl
theorem strip_step_next (s : St) : strip (Step.next s) = .next (strip s) := rfl
theorem strip_out_ok {α : Type} [Strip α] (a : α) : strip (Outcome.ok a) = .ok (strip a) := rfl
theorem strip_out_panic {α : Type} [Strip α] : strip (Outcome.panic : Outcome α) = .panic := rfl
theorem strip_out_diverge {α : Type} [Strip α] : strip (Outcome.diverge : Outcome α) = .diverge := rfl
theorem strip_st (v : Blk) (ts : Toks) (es : List Err) (k : Nat) : strip (⟨v, ts, es, k⟩ : St) = ⟨strip v, strip ts, strip es, k⟩ := rfl

theorem lastUnexpected_of_strip {l m : List Err} (h : strip l = strip m) : lastUnexpected l = lastUnexpected m := by
  have h1 := getLast_of_strip h
  unfold lastUnexpected
  generalize l.getLast? = x at h1
  generalize m.getLast? = y at h1
  rcases x with _ | (_ | _) <;> rcases y with _ | (_ | _) <;> simp [strip, plainErr] at h1 ⊢
  rw [h1.2.1]

theorem isEof_of_strip {t u : TokRef} (h : strip t = strip u) : t.isEof = u.isEof := by
  simp only [TokRef.isEof, type_of_strip h]

theorem err_of {t u : TokRef} (h : strip t = strip u) (msg : String) :
    strip (Err.ast t.token msg none) = strip (Err.ast u.token msg none) := by
  simp [strip, plainErr, type_of_strip h]

theorem same_skipToken {s s' : St} (h : strip s = strip s') : strip (skipToken s) = strip (skipToken s') := by
  obtain ⟨v, ts, es, k⟩ := s
  obtain ⟨v', ts', es', k'⟩ := s'
  simp only [strip_st, Run.mk.injEq] at h
  obtain ⟨hv, ht, he, rfl⟩ := h
  match ts, ts' with
  | [], [] => rfl
  | [], _ :: _ => simp at ht
  | _ :: _, [] => simp at ht
  | x :: ts, y :: ts' =>
    simp only [strip_cons, List.cons.injEq] at ht
    obtain ⟨hx, ht⟩ := ht
    have hx' := hx
    cases x <;> cases y <;> simp [strip, plainRes] at hx'
    · rename_i t u
      have hu : strip t = strip u := hx'
      simp only [skipToken, isEof_of_strip hu, lastUnexpected_of_strip he]
      split
      · simp [strip_out_ok, strip_step_stop, strip_st, hv, ht, he, hx]
      · split
        · simp [strip_out_ok, strip_step_next, strip_st, hv, ht, he]
        · simp [strip_out_ok, strip_step_next, strip_st, hv, ht, he, err_of hu]
    · rename_i es1 es2
      have hes := strip_tokErrs hx'
      simp only [skipToken]
      simp [strip_out_ok, strip_step_next, strip_st, hv, ht, he, hes]
    · rename_i t es1 u es2
      have hu : strip t = strip u := hx'.1
      have hes := strip_tokErrs hx'.2
      have hl : strip (es ++ es1.map .tokenizer) = strip (es' ++ es2.map .tokenizer) := by simp [he, hes]
      simp only [skipToken, isEof_of_strip hu, lastUnexpected_of_strip hl]
      split
      · simp [strip_out_ok, strip_step_stop, strip_st, hv, ht, he, hx]
      · split
        · simp [strip_out_ok, strip_step_next, strip_st, hv, ht, he, hes]
        · simp [strip_out_ok, strip_step_next, strip_st, hv, ht, he, hes, err_of hu]

theorem same_lateStatement {hasLast : Bool} {b b' : Blk} (h : strip b = strip b') :
    strip (lateStatement hasLast b) = strip (lateStatement hasLast b') := by
  unfold lateStatement
  split
  · have hn : strip b.node = strip b'.node := by simp [h]
    have h1 := next_strip hn
    generalize (Tokens.next b.node.items).1 = x at h1
    generalize (Tokens.next b'.node.items).1 = y at h1
    cases x <;> cases y <;> simp at h1
    · rfl
    · simp [strip_out_ok, err_of h1]
  · rfl

theorem strip_merge (a b : Blk) : strip (a.merge b) = (strip a).merge (strip b) := by
  unfold Blk.merge
  obtain ⟨s, l⟩ := a
  cases l <;> simp

theorem same_moreStatements {hasLast : Bool} {s s' : St} (h : strip s = strip s') :
    strip (moreStatements c hasLast s) = strip (moreStatements c hasLast s') := by
  obtain ⟨v, ts, es, k⟩ := s
  obtain ⟨v', ts', es', k'⟩ := s'
  simp only [strip_st, Run.mk.injEq] at h
  obtain ⟨hv, ht, he, rfl⟩ := h
  have h1 := sim_topBlock (c := c) ts ts' ht
  unfold moreStatements
  dsimp only
  cases hp : topBlock c ts <;> cases hq : topBlock c ts' <;> rw [hp, hq] at h1 <;>
    simp only [stripRun, Outcome.ok.injEq, Run.mk.injEq, reduceCtorEq] at h1 ⊢
  rename_i r r'
  obtain ⟨b, ts1, es1, k1⟩ := r
  obtain ⟨b', ts2, es2, k2⟩ := r'
  dsimp only at h1
  obtain ⟨hb, ht1, he1, rfl⟩ := h1
  cases b <;> cases b' <;> simp at hb
  · rename_i b b'
    have hemp : b.stmts.isEmpty = b'.stmts.isEmpty := isEmpty_of_strip (by simp [hb])
    dsimp only
    rw [hemp]
    split
    · exact same_skipToken (by simp [strip_st, hv, ht1, he, he1])
    · have h2 := same_lateStatement (hasLast := hasLast) hb
      cases hp : lateStatement hasLast b <;> cases hq : lateStatement hasLast b' <;> rw [hp, hq] at h2 <;>
        simp only [strip_out_ok, strip_out_panic, strip_out_diverge, Outcome.ok.injEq, reduceCtorEq] at h2 ⊢
      simp [strip_step_next, strip_st, strip_merge, hv, hb, ht1, he, he1, h2]
  · simp [strip_out_ok, strip_step_next, strip_st, hv, ht1, he, he1]
  · simp [strip_out_ok, strip_step_next, strip_st, hv, ht1, he, he1]

theorem mainStep_ok (hasLast : Bool) (v : Blk) (t : TokRef) (ts : Toks) (es : List Err) (k : Nat) :
    mainStep c hasLast ⟨v, .ok t :: ts, es, k⟩ =
      if t.isEof then .ok (.stop ⟨v, .ok t :: ts, es, k⟩) else moreStatements c hasLast ⟨v, .ok t :: ts, es, k⟩ := rfl
theorem mainStep_recovered (hasLast : Bool) (v : Blk) (t : TokRef) (es1 : List TokErr) (ts : Toks) (es : List Err) (k : Nat) :
    mainStep c hasLast ⟨v, .recovered t es1 :: ts, es, k⟩ = moreStatements c hasLast ⟨v, .recovered t es1 :: ts, es, k⟩ := rfl
theorem mainStep_fatal (hasLast : Bool) (v : Blk) (es1 : List TokErr) (ts : Toks) (es : List Err) (k : Nat) :
    mainStep c hasLast ⟨v, .fatal es1 :: ts, es, k⟩ = .ok (.next ⟨v, ts, es ++ es1.map .tokenizer, k⟩) := rfl
theorem mainStep_nil (hasLast : Bool) (v : Blk) (es : List Err) (k : Nat) :
    mainStep c hasLast ⟨v, [], es, k⟩ = .ok (.stop ⟨v, [], es, k⟩) := rfl

theorem same_mainStep {hasLast : Bool} {s s' : St} (h : strip s = strip s') :
    strip (mainStep c hasLast s) = strip (mainStep c hasLast s') := by
  obtain ⟨v, ts, es, k⟩ := s
  obtain ⟨v', ts', es', k'⟩ := s'
  have h' := h
  simp only [strip_st, Run.mk.injEq] at h
  obtain ⟨hv, ht, he, rfl⟩ := h
  rcases ts with _ | ⟨x, ts⟩ <;> rcases ts' with _ | ⟨y, ts'⟩
  · rw [mainStep_nil, mainStep_nil, strip_out_ok, strip_out_ok, strip_step_stop, strip_step_stop, h']
  · simp at ht
  · simp at ht
  · simp only [strip_cons, List.cons.injEq] at ht
    obtain ⟨hx, ht⟩ := ht
    have hx' := hx
    cases x <;> cases y <;> simp [strip, plainRes] at hx'
    · rename_i t u
      have hu : strip t = strip u := hx'
      rw [mainStep_ok, mainStep_ok, isEof_of_strip hu]
      split
      · rw [strip_out_ok, strip_out_ok, strip_step_stop, strip_step_stop, h']
      · exact same_moreStatements h'
    · rename_i es1 es2
      have hes := strip_tokErrs hx'
      rw [mainStep_fatal, mainStep_fatal]
      simp [strip_out_ok, strip_step_next, strip_st, hv, ht, he, hes]
    · rw [mainStep_recovered, mainStep_recovered]
      exact same_moreStatements h'

theorem same_mainLoop {hasLast : Bool} (n : Nat) {s s' : St} (h : strip s = strip s') :
    strip (mainLoop c hasLast n s) = strip (mainLoop c hasLast n s') := by
  induction n generalizing s s' with
  | zero => rfl
  | succ n ih =>
    have h1 := same_mainStep (c := c) (hasLast := hasLast) h
    unfold mainLoop
    rcases hp : mainStep c hasLast s with (a | a) | _ | _ <;> rcases hq : mainStep c hasLast s' with (b | b) | _ | _ <;> rw [hp, hq] at h1 <;>
      simp only [strip_out_ok, strip_out_panic, strip_out_diverge, strip_step_stop, strip_step_next, Outcome.ok.injEq, reduceCtorEq,
        Step.stop.injEq, Step.next.injEq] at h1 ⊢
    · exact h1
    · exact ih h1

theorem strip_result (n : Node) (t : TokRef) (es : List Err) (k : Nat) :
    strip (⟨⟨n, t⟩, es, k⟩ : AstResult) = ⟨⟨strip n, strip t⟩, strip es, k⟩ := rfl

theorem same_finish {s s' : St} (h : strip s = strip s') : strip (finish s) = strip (finish s') := by
  obtain ⟨v, ts, es, k⟩ := s
  obtain ⟨v', ts', es', k'⟩ := s'
  simp only [strip_st, Run.mk.injEq] at h
  obtain ⟨hv, ht, he, rfl⟩ := h
  match ts, ts' with
  | [], [] => rfl
  | [], _ :: _ => simp at ht
  | _ :: _, [] => simp at ht
  | x :: ts, y :: ts' =>
    simp only [strip_cons, List.cons.injEq] at ht
    obtain ⟨hx, ht⟩ := ht
    have hx' := hx
    cases x <;> cases y <;> simp [strip, plainRes] at hx'
    · rename_i t u
      have hu : strip t = strip u := hx'
      simp only [finish, isEof_of_strip hu]
      split
      · simp [strip_out_ok, strip_result, hv, he, hu]
      · rfl
    · rfl
    · rename_i t es1 u es2
      have hu : strip t = strip u := hx'.1
      have hes := strip_tokErrs hx'.2
      simp only [finish, isEof_of_strip hu]
      split
      · simp [strip_out_ok, strip_result, hv, he, hu, hes]
      · rfl

theorem same_firstBlock {r r' : Res Blk} (h : strip r = strip r') : strip (firstBlock r) = strip (firstBlock r') := by
  cases r <;> cases r' <;> simp at h
  · exact h
  · rfl
  · rfl

/-- The results of parsing tokens that only differ in trivia and positions only differ in trivia and positions. -/
theorem same_parseTokens {ts ts' : Toks} (h : strip ts = strip ts') : strip (parseTokens c ts) = strip (parseTokens c ts') := by
  have h1 := sim_topBlock (c := c) ts ts' h
  unfold parseTokens
  cases hp : topBlock c ts <;> cases hq : topBlock c ts' <;> rw [hp, hq] at h1 <;>
    simp only [stripRun, Outcome.ok.injEq, Run.mk.injEq, reduceCtorEq] at h1 ⊢
  rename_i r r'
  obtain ⟨hb, ht, he, hk⟩ := h1
  have hb' := same_firstBlock hb
  have hl : (firstBlock r.val).last.isSome = (firstBlock r'.val).last.isSome := isSome_of_strip (by simp [hb'])
  rw [length_of_strip ht, hl]
  have h2 := same_mainLoop (c := c) (hasLast := (firstBlock r'.val).last.isSome) (r'.toks.length + 1)
    (s := ⟨firstBlock r.val, r.toks, r.errs, r.silent⟩) (s' := ⟨firstBlock r'.val, r'.toks, r'.errs, r'.silent⟩)
    (by simp [strip_st, hb', ht, he, hk])
  cases hp : mainLoop c (firstBlock r'.val).last.isSome (r'.toks.length + 1) ⟨firstBlock r.val, r.toks, r.errs, r.silent⟩ <;>
    cases hq : mainLoop c (firstBlock r'.val).last.isSome (r'.toks.length + 1) ⟨firstBlock r'.val, r'.toks, r'.errs, r'.silent⟩ <;>
    rw [hp, hq] at h2 <;>
    simp only [strip_out_ok, strip_out_panic, strip_out_diverge, Outcome.ok.injEq, reduceCtorEq] at h2 ⊢
  exact same_finish h2

end FM.Parser.Format
