import Verif.Proofs.Parser.Stmt

/-! Helper lemmas: the parser on a whole file (Model/Parser/Parse). -/

namespace FM.Parser
open FM.Spec FM.Props

variable {c : Cfg} {K : TokRef → Prop}

theorem recOk [Phantoms c K] : ∀ n, RecOk c K n (parsers c n)
  | 0 => by
    have no : ∀ {α : Type} {p : M α} {ts : Toks} {Q : α → Toks → Prop}, ts.length ≤ 0 → wp c K p ts Q :=
      fun h => wp_good fun hg => absurd hg.length (by omega)
    exact ⟨fun _ h => no h, fun _ h => no h, fun _ h => no h, fun _ _ _ h _ => no h, fun _ _ h => no h, fun _ _ h => no h⟩
  | n + 1 => by
    have ih := recOk n
    exact ⟨fun _ h => parseBlock_spec ih h, fun _ h => parseExpression_spec ih h, fun _ h => parsePrimary_spec ih h,
      fun _ _ _ h hl => parseClimb_spec ih hl h, fun hl _ h => parseType_spec ih hl h, fun hl _ h => parseTypeOrPack_spec ih hl h⟩

theorem topBlock_spec [Phantoms c K] {ts : Toks} : wp c K (topBlock c) ts (BlockQ c K ts) := by
  have h := (recOk (c := c) (K := K) (ts.length + 1)).block ts (Nat.le_succ _)
  unfold wp topBlock at *
  generalize (parsers c (ts.length + 1)).block = p at *
  exact h

/-- The state of the loop, after the tokens before `s.toks` in `ts0`. -/
structure Inv (c : Cfg) (K : TokRef → Prop) (ts0 : Toks) (s : St) : Prop where
  good : Good c K s.toks
  acc : Acc K ts0 s.errs s.toks
  silent : c.luau = false → s.silent = 0
  block : BlkTy c K s.val

/-- The step leads to a state with fewer tokens, or to the end. -/
def StepQ (c : Cfg) (K : TokRef → Prop) (ts0 : Toks) (s : St) : Outcome Step → Prop
  | .ok (.stop s') => Inv c K ts0 s' ∧ ∃ x t, s'.toks = [x] ∧ tok? x = some t ∧ t.isEof = true
  | .ok (.next s') => Inv c K ts0 s' ∧ s'.toks.length < s.toks.length
  | .panic => PanicOK c ts0
  | .diverge => False

theorem Acc.drop {ts0 rest : Toks} {errs es : List Err} {x : LexRes TokRef} (h : Acc K ts0 errs (x :: rest))
    (h1 : es.filterMap Err.tokErr? = errorsOf [x]) (h2 : ∀ e ∈ es, e.Known K) : Acc K ts0 (errs ++ es) rest :=
  h.trans ⟨⟨[x], rfl, h1⟩, h2⟩

theorem skipToken_spec {ts0 : Toks} {s : St} (h : Inv c K ts0 s) : StepQ c K ts0 s (skipToken s) := by
  obtain ⟨b, ts, errs, silent⟩ := s
  obtain ⟨hg, ha, hs, hb⟩ := h
  dsimp only at hg ha hs hb
  have hl := hg.length
  have hh := fun t => hg.head (t := t)
  unfold skipToken
  rcases ts with _ | ⟨t | es | ⟨t, es⟩, rest⟩
  · simp at hl
  · dsimp only
    have hk := (hh t rfl).1
    split
    · rename_i he
      obtain ⟨x, hx, hx'⟩ := hg.eof (t := t) rfl he
      exact ⟨⟨hg, ha, hs, hb⟩, x, t, hx, hx', he⟩
    · rename_i he
      have hg' : Good c K rest := hg.tail fun u hu => by cases hu; simpa using he
      split
      · exact ⟨⟨hg', by simpa using ha.drop (es := []) rfl (by simp), hs, hb⟩, by simp⟩
      · refine ⟨⟨hg', ha.drop (es := [_]) rfl ?_, hs, hb⟩, by simp⟩
        intro e he
        simp only [List.mem_singleton] at he; subst he
        exact ⟨t, hk, rfl, by simp⟩
  · refine ⟨⟨hg.tail fun u hu => (by cases hu), ha.drop (x := .fatal es) ?_ (known_tokenizer es), hs, hb⟩, by simp⟩
    rw [filterMap_tokErr]; simp [errorsOf]
  · dsimp only
    have hk := (hh t rfl).1
    have he0 : (es.map Err.tokenizer).filterMap Err.tokErr? = errorsOf [LexRes.recovered t es] := by
      rw [filterMap_tokErr]; simp [errorsOf]
    split
    · rename_i he
      obtain ⟨x, hx, hx'⟩ := hg.eof (t := t) rfl he
      exact ⟨⟨hg, ha, hs, hb⟩, x, t, hx, hx', he⟩
    · rename_i he
      have hg' : Good c K rest := hg.tail fun u hu => by cases hu; simpa using he
      split
      · exact ⟨⟨hg', ha.drop he0 (known_tokenizer es), hs, hb⟩, by simp⟩
      · refine ⟨⟨hg', ?_, hs, hb⟩, by simp⟩
        dsimp only
        rw [List.append_assoc]
        refine ha.drop (by rw [List.filterMap_append, he0]; simp [Err.tokErr?]) ?_
        intro e he
        rcases List.mem_append.1 he with he | he
        · exact known_tokenizer es e he
        · simp only [List.mem_singleton] at he; subst he
          exact ⟨t, hk, rfl, by simp⟩

theorem BlkTy.merge {b b' : Blk} (h : BlkTy c K b) (h' : BlkTy c K b') : BlkTy c K (b.merge b') := by
  refine ⟨fun s hs => ?_, fun s hs => ?_⟩
  · rcases List.mem_append.1 hs with hs | hs
    · exact h.1 s hs
    · exact h'.1 s hs
  · unfold Blk.merge at hs
    cases hb : b.last with
    | none => rw [hb] at hs; exact h'.2 s (by simpa using hs)
    | some x => rw [hb] at hs; exact h.2 s (by rw [hb]; simpa using hs)

theorem blk_tokens_ne {b : Blk} (h : BlkTy c K b) (hne : b.stmts ≠ []) : b.node.tokens ≠ [] := by
  cases hs : b.stmts with
  | nil => exact absurd hs hne
  | cons s rest =>
    have := tokens_ne _ _ rfl (h.1 s (by simp [hs])).1.1
    simp [Blk.node, hs, vec, stmtNode, this]

theorem lateStatement_spec {b : Blk} (h : BlkTy c K b) (hne : b.stmts ≠ []) (hasLast : Bool) :
    ∃ es, lateStatement hasLast b = .ok es ∧ es.filterMap Err.tokErr? = [] ∧ ∀ e ∈ es, e.Known K := by
  unfold lateStatement
  split
  · have h1 := (next_spec b.node.items).1
    rw [(items_spec b.node).1] at h1
    split
    · rename_i t ht
      rw [ht] at h1
      refine ⟨_, rfl, rfl, ?_⟩
      intro e he
      simp only [List.mem_singleton] at he; subst he
      exact ⟨t, tokens_known _ ⟨_, (wellTy_blk.2 h).1⟩ t (List.mem_of_head? h1.symm), rfl, by simp⟩
    · rename_i ht
      rw [ht] at h1
      exact absurd (List.head?_eq_none_iff.1 h1.symm) (blk_tokens_ne h hne)
  · exact ⟨[], rfl, rfl, by simp⟩

theorem moreStatements_spec [Phantoms c K] {ts0 : Toks} {s : St} (h : Inv c K ts0 s) (hasLast : Bool) :
    StepQ c K ts0 s (moreStatements c hasLast s) := by
  have ht := topBlock_spec (c := c) (K := K) (ts := s.toks) h.good
  unfold moreStatements
  split at ht
  · rename_i r hr
    rw [hr]
    obtain ⟨hg, ha, hsil, hv, hnf, hm⟩ := ht
    have base : ∀ b, BlkTy c K b → Inv c K ts0 ⟨b, r.toks, s.errs ++ r.errs, s.silent + r.silent⟩ := fun b hb =>
      ⟨hg, h.acc.trans ha, fun hl => by dsimp only; rw [h.silent hl, hsil hl], hb⟩
    have hlen := ha.length
    dsimp only
    cases hval : r.val with
    | value b =>
      obtain ⟨hb, hlt⟩ := hv b hval
      dsimp only
      split
      · have := skipToken_spec (base s.val h.block)
        revert this
        unfold StepQ
        split
        · exact id
        · rintro ⟨h1, h2⟩; exact ⟨h1, by dsimp only at h2; omega⟩
        · exact id
        · exact id
      · rename_i hne
        have hne : b.stmts ≠ [] := by simpa using hne
        obtain ⟨es, he, h1, h2⟩ := lateStatement_spec hb hne hasLast
        rw [he]
        refine ⟨⟨hg, ?_, (base s.val h.block).silent, h.block.merge hb⟩, hlt hne⟩
        exact (h.acc.trans ha).trans ⟨⟨[], rfl, by rw [h1]; rfl⟩, h2⟩
    | moved => exact ⟨base s.val h.block, hm hval⟩
    | notFound => exact absurd hval hnf
  · rename_i hr; rw [hr]; exact ht.of_acc h.acc
  · exact ht.elim

theorem mainStep_spec [Phantoms c K] {ts0 : Toks} {s : St} (h : Inv c K ts0 s) (hasLast : Bool) :
    StepQ c K ts0 s (mainStep c hasLast s) := by
  have hl := h.good.length
  unfold mainStep
  split
  · rename_i t rest hts
    split
    · rename_i he
      obtain ⟨x, hx, hx'⟩ := h.good.eof (t := t) (by simp [hts, Head, tok?]) he
      exact ⟨h, x, t, hx, hx', he⟩
    · exact moreStatements_spec h hasLast
  · exact moreStatements_spec h hasLast
  · rename_i es rest hts
    have hg := h.good
    have ha := h.acc
    rw [hts] at hg ha
    refine ⟨⟨hg.tail fun u hu => (by cases hu), ha.drop ?_ (known_tokenizer es), h.silent, h.block⟩, by simp [hts]⟩
    rw [filterMap_tokErr]; simp [errorsOf]
  · rename_i hts; simp [hts] at hl

theorem mainLoop_spec [Phantoms c K] {ts0 : Toks} {hasLast : Bool} : ∀ (n : Nat) (s : St), s.toks.length < n → Inv c K ts0 s →
    match mainLoop c hasLast n s with
    | .ok s' => Inv c K ts0 s' ∧ ∃ x t, s'.toks = [x] ∧ tok? x = some t ∧ t.isEof = true
    | .panic => PanicOK c ts0
    | .diverge => False
  | 0, _, hn, _ => by omega
  | n + 1, s, hn, h => by
    have hs := mainStep_spec h hasLast
    unfold mainLoop
    unfold StepQ at hs
    split at hs
    · rename_i s' hs'; rw [hs']; exact hs
    · rename_i s' hs'; rw [hs']; exact mainLoop_spec n s' (by omega) hs.1
    · rename_i hs'; rw [hs']; exact hs
    · exact hs.elim

theorem firstBlock_ty {ts ts' : Toks} {r : Res Blk} (h : BlockQ c K ts r ts') : BlkTy c K (firstBlock r) := by
  cases r with
  | value b => exact (h.1 b rfl).1
  | moved => exact .empty
  | notFound => exact .empty

/-- What `parse_fallible` does on tokens `ts`. -/
theorem parseTokens_spec [Phantoms c K] {ts : Toks} (hg : Good c K ts) :
    match parseTokens c ts with
    | .ok r => WellTy c K (.cat .block) r.ast.nodes ∧ (∃ pre x, ts = pre ++ [x] ∧ tok? x = some r.ast.eof ∧ r.ast.eof.isEof = true) ∧
        r.errors.filterMap Err.tokErr? = errorsOf ts ∧ (∀ e ∈ r.errors, e.Known K) ∧ (c.luau = false → r.silent = 0)
    | .panic => PanicOK c ts
    | .diverge => False := by
  have ht := topBlock_spec (c := c) (K := K) (ts := ts) hg
  unfold parseTokens
  split at ht
  · rename_i r hr
    rw [hr]
    obtain ⟨hg', ha, hsil, hb⟩ := ht
    have := mainLoop_spec (hasLast := (firstBlock r.val).last.isSome) (r.toks.length + 1) ⟨firstBlock r.val, r.toks, r.errs, r.silent⟩
      (Nat.lt_succ_self _) ⟨hg', ha, hsil, firstBlock_ty hb⟩
    dsimp only
    split at this
    · rename_i s hs
      rw [hs]
      obtain ⟨⟨h1, ⟨⟨pre, hpre, h2⟩, h3⟩, h4, h5⟩, x, t, hx, hxt, he⟩ := this
      dsimp only
      rw [hx] at hpre
      unfold finish
      rw [hx]
      cases x with
      | ok u =>
        simp only [tok?, Option.some.injEq] at hxt; subst hxt
        simp only [he, if_true]
        refine ⟨wellTy_blk.2 h5, ⟨pre, _, hpre, rfl, trivial⟩, ?_, h3, h4⟩
        rw [h2, hpre]; simp [errorsOf]
      | recovered u es =>
        simp only [tok?, Option.some.injEq] at hxt; subst hxt
        simp only [he, if_true]
        refine ⟨wellTy_blk.2 h5, ⟨pre, _, hpre, rfl, trivial⟩, ?_, ?_, h4⟩
        · rw [List.filterMap_append, h2, filterMap_tokErr, hpre]; simp [errorsOf]
        · intro e he
          rcases List.mem_append.1 he with he | he
          · exact h3 e he
          · exact known_tokenizer es e he
      | fatal es => simp [tok?] at hxt
    · rename_i hs; rw [hs]; exact this
    · exact this.elim
  · rename_i hr; rw [hr]; exact ht
  · exact ht.elim

end FM.Parser
