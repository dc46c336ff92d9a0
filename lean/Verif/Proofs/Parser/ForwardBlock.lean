import Verif.Proofs.Parser.ForwardStmt

/-! Helper lemmas: the parser accepts the blocks of the grammar. -/

namespace FM.Parser.Forward
open FM.Spec FM.Parser FM.Parser.Clean

variable {c : Cfg} {α β : Type} {self : Rec} {l : List TokRef}

theorem ahead_not {t : TokRef} (h : is .lessThan t = false) : Ahead t l := fun h' => by rw [h] at h'; cases h'

theorem ahead_sym {t : TokRef} {s : Symbol} (h : Sym t s) (hs : s ≠ .lessThan) : Ahead t l := ahead_not (by simp [is_sym h, hs])

/-! ## Statements that start with an expression -/

theorem suffix_symbol {t : TokRef} {s : Symbol} (h : Sym t s) (hs : [Symbol.questionMarkDot, .dot, .leftBracket, .leftParen, .leftBrace, .colon].contains s = false) :
    startsSuffix c t = false := by
  simp at hs
  simp [startsSuffix, is_sym h, isString_sym h, hs]

theorem varsLoop_runs (hs : RecF c self) {t : TokRef} (ht : Sym t .equal) {ps : List (Pair Node)} (h : ListF (Fits c (.cat .var)) .comma ps) :
    ∀ x ps', ps = x :: ps' → ∀ n A, runs (varsLoop self c n ⟨A ++ [.end x.value]⟩) (restOf ps ++ t :: l) (some ⟨A ++ ps⟩) (t :: l) := by
  induction h with
  | @last a ha =>
    rintro _ _ ⟨⟩ n A
    cases n with
    | zero => exact runs_diverge
    | succ n =>
      unfold varsLoop
      simp only [restOf, Pair.punctuation, yield_none, yield_nil, List.nil_append]
      rw [takeIf_neg (by simp [is_sym ht])]
      exact runs_pure
  | @cons a u x ps ha hu hx ih =>
    rintro _ _ ⟨⟩ n A
    cases n with
    | zero => exact runs_diverge
    | succ n =>
      have hv : Fits c (.cat .var) x.value := by cases hx <;> assumption
      have hy : yield (x :: ps) = x.value.flat ++ restOf (x :: ps) := by
        cases x <;> simp [restOf, Pair.value, Pair.punctuation]
      have hd : ∃ v k, restOf (x :: ps) ++ t :: l = v :: k ∧ startsSuffix c v = false ∧ is .lessThan v = false := by
        cases hx with
        | last h => exact ⟨t, l, rfl, suffix_symbol ht rfl, by simp [is_sym ht]⟩
        | @cons b w y ps h hw hy => exact ⟨w, yield (y :: ps) ++ t :: l, rfl, suffix_symbol hw rfl, by simp [is_sym hw]⟩
      obtain ⟨v, k, hk, hv', hva⟩ := hd
      have ih' := ih x ps rfl n (A ++ [.punctuated a u])
      unfold varsLoop
      simp only [restOf, Pair.punctuation, yield_some, yield_tok, List.cons_append, List.nil_append]
      rw [takeIf_pos (is_iff.2 hu)]
      dsimp only
      rw [hy, List.append_assoc]
      rw [hk] at ih' ⊢
      obtain ⟨p, ss, hps, h2, h3, h4⟩ := view_var hv
      rw [hps] at ih' ⊢
      have hf : (varNode p ss).flat = p.node.flat ++ yield ss := by simp [varNode_flat, yield_pre]
      rw [hf, List.append_assoc]
      refine runs_bind (prefixAndSuffixes_runs hs hv' (ahead_not hva) h2 h3) ?_
      dsimp only
      split
      · rename_i cs hcs
        rw [lastIsCall_iff.2 (by rw [hcs]; rfl)] at h4
        cases h4
      · have hp : (Pair.punctuated a u).value = a := rfl
        rw [hp, push_eq]
        simpa using ih'

theorem assignment_runs (hs : RecF c self) {vs es : Punctuated Node} {u t : TokRef} (h1 : ListF (Fits c (.cat .var)) .comma vs.pairs) (hu : Sym u .equal)
    (h2 : ListF (Fits c .expr) .comma es.pairs) (h3 : is .comma t = false) (h4 : ∀ e, es.pairs.getLast? = some (.end e) → Stop c e t) :
    ∀ x ps', vs.pairs = x :: ps' → runs (assignment self c x.value) (restOf vs.pairs ++ u :: (yield es ++ t :: l))
      (stmt .stmtAssignment (.node .assignment [punct vs, .tok u, punct es])) (t :: l) := by
  intro x ps' hx
  unfold assignment
  rw [fuel_bind]
  refine runs_bind (varsLoop_runs hs hu h1 x ps' hx _ []) ?_
  dsimp only
  rw [require_pos (is_iff.2 hu)]
  dsimp only
  refine runs_bind (expressionList_runs hs h2 h3 h4) ?_
  exact runs_pure

theorem callStmt_runs (hs : RecF c self) {f : Node} (h : Fits c (.cat .functionCall) f) {t : TokRef} (ht : startsSuffix c t = false) (ha : Ahead t l) :
    runs (expressionStmt self c) (f.flat ++ t :: l) (stmt .stmtCall f) (t :: l) := by
  obtain ⟨p, ss, rfl, h2, h3, h4⟩ := view_call h
  have hf : (callNode p ss).flat = p.node.flat ++ yield ss := by simp [callNode_flat, yield_pre]
  unfold expressionStmt
  rw [hf, List.append_assoc]
  refine runs_bind (prefixAndSuffixes_runs hs ht ha h2 h3) ?_
  dsimp only
  rw [if_pos h4]
  exact runs_pure

theorem assign_runs (hs : RecF c self) {vs es : Punctuated Node} {u t : TokRef} (h1 : ListF (Fits c (.cat .var)) .comma vs.pairs) (hu : Sym u .equal)
    (h2 : ListF (Fits c .expr) .comma es.pairs) (h3 : is .comma t = false) (h4 : ∀ e, es.pairs.getLast? = some (.end e) → Stop c e t) :
    runs (expressionStmt self c) (yield vs ++ u :: (yield es ++ t :: l)) (stmt .stmtAssignment (.node .assignment [punct vs, .tok u, punct es])) (t :: l) := by
  have key := assignment_runs (l := l) hs h1 hu h2 h3 h4
  obtain ⟨ps⟩ := vs
  cases ps with
  | nil => cases h1
  | cons x ps =>
    have hv : Fits c (.cat .var) x.value := by cases h1 <;> assumption
    have hy : yield (⟨x :: ps⟩ : Punctuated Node) = x.value.flat ++ restOf (x :: ps) := by
      cases x <;> simp [restOf, Pair.value, Pair.punctuation]
    have hd : ∃ v k, restOf (x :: ps) ++ u :: (yield es ++ t :: l) = v :: k ∧ startsSuffix c v = false ∧ (is .comma v || is .equal v) = true ∧ isCompound c v = false ∧ is .lessThan v = false := by
      have hcomp : ∀ {v : TokRef} {s : Symbol}, Sym v s → s = .comma ∨ s = .equal → isCompound c v = false := by
        rintro v s h (rfl | rfl) <;> simp [isCompound, is_sym h]
      cases h1 with
      | last h => exact ⟨u, _, rfl, suffix_symbol hu rfl, by simp [is_sym hu], hcomp hu (.inr rfl), by simp [is_sym hu]⟩
      | @cons b w y ps h hw hy => exact ⟨w, yield (y :: ps) ++ u :: (yield es ++ t :: l), by simp [restOf, Pair.punctuation], suffix_symbol hw rfl, by simp [is_sym hw], hcomp hw (.inl rfl), by simp [is_sym hw]⟩
    obtain ⟨v, k, hk, hv1, hv2, hv3, hva⟩ := hd
    have key := key x ps rfl
    rw [hy, List.append_assoc]
    dsimp only at key
    rw [hk] at key ⊢
    obtain ⟨p, ss, hps, g2, g3, g4⟩ := view_var hv
    rw [hps] at key ⊢
    have hf : (varNode p ss).flat = p.node.flat ++ yield ss := by simp [varNode_flat, yield_pre]
    unfold expressionStmt
    rw [hf, List.append_assoc]
    refine runs_bind (prefixAndSuffixes_runs hs hv1 (ahead_not hva) g2 g3) ?_
    dsimp only
    rw [if_neg (by simp [g4]), current_bind]
    dsimp only
    rw [if_neg (by simp [hv3]), if_pos hv2]
    exact key

theorem cfx_feat (h : c.cfxlua = true) : c.feat.cfxlua = true := by
  simp only [Cfg.cfxlua, Cfg.has, LuaVersion.has, Bool.and_eq_true_iff] at h
  exact h.1

theorem compound_runs (hs : RecF c self) {v x : Node} {o : CompoundOp} {u t : TokRef} (h1 : Fits c (.cat .var) v) (ho : ordinary c (.compoundOp o))
    (hu : Sym u (compoundSymbol o)) (h2 : Fits c .expr x) (h3 : Stop c x t) :
    runs (expressionStmt self c) (v.flat ++ u :: (x.flat ++ t :: l)) (stmt .stmtCompound (.node .compoundAssignment [v, .node (.compoundOp o) [.tok u], x])) (t :: l) := by
  have ho' : isCompound c u = true ∧ compoundOp c u = some o ∧ startsSuffix c u = false ∧ is .lessThan u = false := by
    rcases ho with ⟨hl, ho⟩ | ⟨hc, ho⟩
    · have hf := luau_feat hl
      cases o <;> first
        | (cases ho; done)
        | (simp only [compoundSymbol] at hu
           refine ⟨by simp [isCompound, is_sym hu, hl], by simp [compoundOp, is_sym hu, hf], suffix_symbol hu rfl, by simp [is_sym hu]⟩)
    · have hf := cfx_feat hc
      cases o <;> first
        | (cases ho; done)
        | (simp only [compoundSymbol] at hu
           refine ⟨by simp [isCompound, is_sym hu, hc], by simp [compoundOp, is_sym hu, hf], suffix_symbol hu rfl, by simp [is_sym hu]⟩)
  obtain ⟨p, ss, rfl, g2, g3, g4⟩ := view_var h1
  have hf : (varNode p ss).flat = p.node.flat ++ yield ss := by simp [varNode_flat, yield_pre]
  unfold expressionStmt
  rw [hf, List.append_assoc]
  refine runs_bind (prefixAndSuffixes_runs hs ho'.2.2.1 (ahead_not ho'.2.2.2) g2 g3) ?_
  dsimp only
  rw [if_neg (by simp [g4]), current_bind]
  dsimp only
  rw [if_pos ho'.1]
  unfold parseCompound
  rw [take_bind]
  refine runs_bind (hs.expr x t _ h2 h3) ?_
  dsimp only
  rw [ho'.2.1]
  exact runs_pure

/-! ## Statements that start with a contextual keyword -/

/-- The token after a contextual keyword. -/
structure Plain (c : Cfg) (t : TokRef) : Prop where
  suffix : startsSuffix c t = false
  less : is .lessThan t = false
  compound : isCompound c t = false
  comma : is .comma t = false
  equal : is .equal t = false

theorem plain_nam {t : TokRef} (h : Nam t) : Plain c t :=
  ⟨by simp [startsSuffix, is_nam h, isString_nam h], is_nam h, by simp [isCompound, is_nam h], is_nam h, is_nam h⟩

theorem plain_eof {t : TokRef} (h : t.isEof = true) : Plain c t :=
  ⟨by simp [startsSuffix, is_eof h, isString_eof h], is_eof h, by simp [isCompound, is_eof h], is_eof h, is_eof h⟩

theorem plain_sym {t : TokRef} {s : Symbol} (h : Sym t s) (hs : s ∈ [Symbol.kFunction, .kEnd, .kElse, .kElseIf, .kUntil, .kReturn, .kBreak, .semicolon]) : Plain c t := by
  simp only [List.mem_cons, List.not_mem_nil, or_false] at hs
  rcases hs with rfl | rfl | rfl | rfl | rfl | rfl | rfl | rfl <;>
    exact ⟨by simp [startsSuffix, is_sym h, isString_sym h], by simp [is_sym h], by simp [isCompound, is_sym h], by simp [is_sym h], by simp [is_sym h]⟩

theorem contextual_runs (hs : RecF c self) {x t : TokRef} (hx : Nam x) (ht : Plain c t) {v : Res StmtV} {l' : List TokRef}
    (h : runs (contextual self c (.name x) [] t) (t :: l) v l') : runs (expressionStmt self c) (x :: t :: l) v l' := by
  unfold expressionStmt
  have := prefixAndSuffixes_runs (l := l) hs ht.suffix (ahead_not ht.less) (p := .name x) hx (ss := []) nofun
  refine runs_bind (a := .value (.name x, [])) (l1 := t :: l) (by simpa [Pre.node] using this) ?_
  dsimp only
  rw [if_neg (by simp [lastIsCall]), current_bind]
  dsimp only
  rw [if_neg (by simp [ht.compound]), if_neg (by simp [ht.comma, ht.equal])]
  exact h

theorem isNamed_iff {x : Text} {t : TokRef} : isNamed x t = true ↔ Wrd t x := by simp [isNamed]

theorem isNamed_neg {x y : Text} {t : TokRef} (h : Wrd t x) (hxy : x ≠ y) : isNamed y t = false := by
  simp [isNamed, h, hxy]

theorem typeDecl_flat {u x e : TokRef} {g : Option Node} {ty : Node} : (Node.node .typeDecl [.tok u, .tok x, optNode g, .tok e, ty]).flat = u :: x :: (yield g ++ e :: ty.flat) := by
  cases g <;> flat

theorem typeFunction_flat {u f x : TokRef} {b : Node} : (Node.node .typeFunction [.tok u, .tok f, .tok x, b]).flat = u :: f :: x :: b.flat := by flat

theorem typeDeclaration_runs (hl : c.luau = true) (hs : RecF c self) {u x e : TokRef} {g : Option Node} {ty : Node} (h2 : Nam x) (h3 : ∀ m, g = some m → Fits c (.cat .genericDecl) m)
    (h4 : Sym e .equal) (h5 : Fits c (.cat .typeInfo) ty) (h6 : single ty = true) {t : TokRef} (ht : FollowT ty t) :
    runs (expectTypeDeclaration self c u) (x :: (yield g ++ e :: (ty.flat ++ t :: l))) (some (.node .typeDecl [.tok u, .tok x, optNode g, .tok e, ty])) (t :: l) := by
  have key : runs (typeDeclarationRest self c u x g) (e :: (ty.flat ++ t :: l)) (some (.node .typeDecl [.tok u, .tok x, optNode g, .tok e, ty])) (t :: l) := by
    unfold typeDeclarationRest
    rw [requireOr_pos (is_iff.2 h4)]
    exact runs_bind (hs.type hl ty t l h5 h6 ht) runs_pure
  unfold expectTypeDeclaration
  rw [takeIf_pos (isIdent_nam h2)]
  dsimp only
  cases g with
  | none =>
    rw [yield_none, List.nil_append]
    refine runs_bind (genericList_none (by simp [is_sym h4])) ?_
    exact key
  | some m =>
    rw [yield_some, yield_node]
    refine runs_bind (genericList_runs hs hl (h3 m rfl) (by simp)) ?_
    exact key

theorem typeFunction_runs (hs : RecF c self) {u f x : TokRef} {b : Node} (h2 : Nam x) (h3 : Fits c (.cat .funcBody) b) :
    runs (expectTypeFunction self c u f) (x :: (b.flat ++ l)) (some (.node .typeFunction [.tok u, .tok f, .tok x, b])) l := by
  unfold expectTypeFunction
  rw [takeIf_pos (isIdent_nam h2)]
  dsimp only
  exact runs_bind (body_runs hs h3) runs_pure

theorem continue_runs (hl : c.luau = true) (hs : RecF c self) {x t : TokRef} (hx : Wrd x c!"continue") (ht : Plain c t) :
    runs (expressionStmt self c) (x :: t :: l) (.value (.last (.node .lastContinue [.tok x]))) (t :: l) := by
  refine contextual_runs hs ⟨_, hx⟩ ht ?_
  unfold contextual
  rw [hl]
  dsimp only
  rw [isNamed_neg hx (by decide), isNamed_neg hx (by decide), isNamed_iff.2 hx]
  exact runs_pure

theorem typeStmt_runs (hl : c.luau = true) (hs : RecF c self) {x t : TokRef} (hx : Wrd x c!"type") (ht : Plain c t) {v : Res StmtV} {l' : List TokRef}
    (h : runs (typeStmt self c x) (t :: l) v l') : runs (expressionStmt self c) (x :: t :: l) v l' := by
  refine contextual_runs hs ⟨_, hx⟩ ht ?_
  unfold contextual
  rw [hl]
  dsimp only
  rw [isNamed_neg hx (by decide), isNamed_iff.2 hx]
  exact h

theorem exportStmt_runs (hl : c.luau = true) (hs : RecF c self) {x t : TokRef} (hx : Wrd x c!"export") (ht : Plain c t) {v : Res StmtV} {l' : List TokRef}
    (h : runs (exportStmt self c x) (t :: l) v l') : runs (expressionStmt self c) (x :: t :: l) v l' := by
  refine contextual_runs hs ⟨_, hx⟩ ht ?_
  unfold contextual
  rw [hl]
  dsimp only
  rw [isNamed_iff.2 hx]
  exact h

/-! ## Statements -/

theorem last_is {s : Symbol} (hs : s ∉ [Symbol.kReturn, .kBreak]) {t : TokRef} (h : is .kReturn t = true ∨ is .kBreak t = true) : is s t = false := by
  simp at hs
  rcases h with h | h <;> simp [is_sym (is_iff.1 h), Ne.symm hs.1, Ne.symm hs.2]

/-- The kinds of statements with a keyword of their own. -/
theorem parseStmt_sym {t : TokRef} {s : Symbol} (h : Sym t s) {v : Res StmtV} {l' : List TokRef}
    (hr : runs (if s = .kLocal then localStmt self c else if s = .kFor then (take >>= fun t => expectFor self c t) else if s = .kDo then doStmt self c
      else if s = .kIf then (take >>= fun t => expectIf self c t >>= fun n => pure (stmtOrMoved .stmtIf n))
      else if s = .kFunction then (take >>= fun t => expectFunctionDeclaration self c [] t >>= fun n => pure (stmtOrMoved .stmtFunction n))
      else if s = .kRepeat then (take >>= fun t => expectRepeat self c t)
      else if s = .kWhile then (take >>= fun t => expectWhile self c t >>= fun n => pure (stmtOrMoved .stmtWhile n))
      else if s = .leftParen then expressionStmt self c
      else if (c.feat.lua52 || c.feat.luajit || c.feat.cfxlua) = true ∧ s = .kGoto then gotoStmt c
      else if (c.lua52 || c.luajit) = true ∧ s = .twoColons then labelStmt c
      else if c.luau = true ∧ s = .atSign then attributedStmt self c
      else pure .notFound) (t :: l) v l') : runs (parseStmt self c) (t :: l) v l' := by
  unfold parseStmt
  rw [current_bind]
  dsimp only
  simp only [is_sym h, isIdent_sym h, Bool.or_false, decide_eq_true_eq, Bool.and_eq_true]
  exact hr

theorem parseStmt_expr {t : TokRef} (h : Nam t ∨ Sym t .leftParen) {v : Res StmtV} {l' : List TokRef} (hr : runs (expressionStmt self c) (t :: l) v l') :
    runs (parseStmt self c) (t :: l) v l' := by
  rcases h with h | h
  · unfold parseStmt
    rw [current_bind]
    dsimp only
    simpa [is_nam h, isIdent_nam h] using hr
  · exact parseStmt_sym h (by simpa using hr)

theorem attributed_runs (hs : RecF c self) {as : List Node} (ha : ∀ a ∈ as, LuauAttrV c a) {u : TokRef} {k : List TokRef} (hu : is .atSign u = false) {v : Res StmtV} {l' : List TokRef}
    (h0 : as = [] → runs (parseStmt self c) (u :: k) v l')
    (h : runs (current >>= fun o => match o with
      | none => pure .moved
      | some t =>
        if is .kFunction t then do
          let token ← take
          return stmtOrMoved .stmtFunction (← expectFunctionDeclaration self c as token)
        else if is .kLocal t then do
          let local_ ← take
          match ← takeIf (is .kFunction) with
          | .took token => return stmtOrMoved .stmtLocalFunction (← expectLocalFunction self c as local_ token)
          | .other t =>
            tokenError t "expected `local function` after attribute"
            return .moved
          | .fatal => return .moved
        else do
          tokenError t "expected `function` or `local function` after attribute"
          return .moved) (u :: k) v l') : runs (parseStmt self c) (yield as ++ u :: k) v l' := by
  cases as with
  | nil => exact h0 rfl
  | cons a as =>
    obtain ⟨hl, p, q, rfl, h3, h4⟩ := ha a (.head _)
    have hf : (Node.node .luauAttr [.tok p, .tok q]).flat = [p, q] := by flat
    have key : runs (attributedStmt self c) (yield (Node.node .luauAttr [.tok p, .tok q] :: as) ++ u :: k) v l' := by
      unfold attributedStmt
      refine runs_bind (attributes_runs hu ha (by simp)) ?_
      exact h
    rw [yield_cons, yield_node, hf] at key ⊢
    refine parseStmt_sym h3 ?_
    simp only [reduceCtorEq, if_false, and_false, hl, and_self, if_true]
    exact key

theorem stmt_runs (hc : c.feat.Closed) (hs : RecF c self) {n : Node} (h : StmtF c n) {t : TokRef} (ht : After c n t) :
    runs (parseStmt self c) (n.flat ++ t :: l) (.value (.stmt n)) (t :: l) := by
  have hcomma := after_is ht (q := .comma) (by decide) (by decide)
  cases h with
  | @assignment vs es u h1 h2 h3 =>
    have hf : (Node.node .stmtAssignment [.node .assignment [punct vs, .tok u, punct es]]).flat = yield vs ++ u :: yield es := by flat
    have key := assign_runs (l := l) hs h1 h2 h3 hcomma fun e he => after_stop ht (fun hce => by
      rw [endsCallable, lastCallable_punct he]; exact hce) fun hce => by rw [endsAsserts, lastAsserts_punct he]; exact hce
    rw [hf, List.append_assoc, List.cons_append]
    have hd : ∃ w k, yield vs ++ u :: (yield es ++ t :: l) = w :: k ∧ (Nam w ∨ Sym w .leftParen) := by
      obtain ⟨ps⟩ := vs
      cases h1 with
      | @last a ha =>
        obtain ⟨w, k, g1, -, g2⟩ := var_first ha
        exact ⟨w, k ++ u :: (yield es ++ t :: l), by simp [g1], g2⟩
      | @cons a w' x ps ha hw hx =>
        obtain ⟨w, k, g1, -, g2⟩ := var_first ha
        exact ⟨w, k ++ w' :: (yield (x :: ps) ++ u :: (yield es ++ t :: l)), by simp [g1], g2⟩
    obtain ⟨w, k, hw, hw'⟩ := hd
    rw [hw] at key ⊢
    exact parseStmt_expr hw' key
  | @doBlock a e b h1 h2 h3 =>
    have hf : (Node.node .stmtDo [.node .doBlock [.tok a, b.node, .tok e]]).flat = a :: (yield b ++ [e]) := by flat
    rw [hf, List.cons_append, List.append_assoc]
    refine parseStmt_sym h1 ?_
    simp only [reduceCtorEq, if_false, if_true]
    unfold doStmt
    rw [take_bind]
    exact runs_bind (blockWithEnd_runs hs h2 h3) runs_pure
  | @call f h1 =>
    have hf : (Node.node .stmtCall [f]).flat = f.flat := by flat
    have key := callStmt_runs (l := l) hs h1 (after_suffix ht rfl) (ahead_not (after_is ht (by decide) (by decide)))
    obtain ⟨w, k, g1, -, g2⟩ := call_first h1
    rw [hf]
    rw [g1] at key ⊢
    exact parseStmt_expr g2 key
  | @function as u n b h0 h1 h2 h3 =>
    have hf : (Node.node .stmtFunction [.node .functionDecl [vec as, .tok u, n, b]]).flat = yield as ++ u :: (n.flat ++ b.flat) := by flat
    rw [hf, List.append_assoc, List.cons_append, List.append_assoc]
    refine attributed_runs hs h0 (by simp [is_sym h1]) ?_ ?_
    · rintro rfl
      refine parseStmt_sym h1 ?_
      simp only [reduceCtorEq, if_false, if_true]
      rw [take_bind]
      exact runs_bind (functionDecl_runs hs h2 h3) runs_pure
    · rw [current_bind]
      dsimp only
      rw [if_pos (is_iff.2 h1), take_bind]
      exact runs_bind (functionDecl_runs hs h2 h3) runs_pure
  | @genericFor f i d e ns es b h1 h2 h3 h4 h5 h6 h7 =>
    have hf : (Node.node .stmtGenericFor [genericForNode c f ns i es d b e]).flat = f :: (yield ns ++ i :: (yield es ++ d :: (yield b ++ [e]))) := by
      simp [genericFor_flat h2]
    rw [hf]
    simp only [List.cons_append, List.append_assoc, List.nil_append]
    refine parseStmt_sym h1 ?_
    simp only [reduceCtorEq, if_false, if_true]
    rw [take_bind]
    exact forGeneric_runs hs h2 h3 h4 h5 h6 h7
  | @if_ i u e x b es o h1 h2 h3 h4 h5 h6 h7 =>
    have hf : (Node.node .stmtIf [.node .ifBlock [.tok i, x, .tok u, b.node, optVec es, optTok (o.map (·.1)), optNode (o.map fun p => p.2.node), .tok e]]).flat =
        i :: (x.flat ++ u :: (yield b ++ (yield es ++ (yield o ++ [e])))) := by
      rcases o with _ | ⟨o1, o2⟩ <;> flat
    rw [hf]
    simp only [List.cons_append, List.append_assoc, List.nil_append]
    refine parseStmt_sym h1 ?_
    simp only [reduceCtorEq, if_false, if_true]
    rw [take_bind]
    exact runs_bind (if_runs hs h2 h3 h4 h5 h6 h7) runs_pure
  | @local_ a ns h1 h2 =>
    have hf : (Node.node .stmtLocalAssignment [localNode c a ns none .new]).flat = a :: yield ns := by simp [local_flat hc h2]
    have key := localAssign_runs (l := l) (a := a) hs h2 hcomma (after_is ht (q := .lessThan) (by decide) (by decide)) (after_is ht (q := .equal) (by decide) (by decide))
      (after_is ht (q := .kIn) (by decide) (by decide)) (after_name ht)
    obtain ⟨w, k, g1, g2⟩ := listName_first (fun _ h => h.1) h2
    rw [hf, List.cons_append]
    rw [g1] at key ⊢
    refine parseStmt_sym h1 ?_
    simp only [reduceCtorEq, if_false, if_true]
    unfold localStmt
    rw [take_bind, List.cons_append, current_bind]
    dsimp only
    rw [if_pos (isIdent_nam g2)]
    exact runs_bind key runs_pure
  | @localValues a u ns es h1 h2 h3 h4 =>
    have hf : (Node.node .stmtLocalAssignment [localNode c a ns (some u) es]).flat = a :: (yield ns ++ u :: yield es) := by simp [local_flat hc h2]
    have key := localValues_runs (l := l) (a := a) hs h2 h3 h4 hcomma fun e he => after_stop ht (fun hce => by
      rw [localNode, endsCallable, lastCallable_punct he]; exact hce) fun hce => by rw [localNode, endsAsserts, lastAsserts_punct he]; exact hce
    obtain ⟨w, k, g1, g2⟩ := listName_first (fun _ h => h.1) h2
    rw [hf, List.cons_append, List.append_assoc, List.cons_append]
    rw [g1] at key ⊢
    refine parseStmt_sym h1 ?_
    simp only [reduceCtorEq, if_false, if_true]
    unfold localStmt
    rw [take_bind, List.cons_append, current_bind]
    dsimp only
    rw [if_pos (isIdent_nam g2)]
    exact runs_bind key runs_pure
  | @localFunction as a u n b h0 h1 h2 h3 h4 =>
    have hf : (Node.node .stmtLocalFunction [.node .localFunction [vec as, .tok a, .tok u, .tok n, b]]).flat = yield as ++ a :: u :: n :: b.flat := by flat
    rw [hf, List.append_assoc]
    simp only [List.cons_append]
    refine attributed_runs hs h0 (by simp [is_sym h1]) ?_ ?_
    · rintro rfl
      refine parseStmt_sym h1 ?_
      simp only [reduceCtorEq, if_false, if_true]
      unfold localStmt
      rw [take_bind, current_bind]
      dsimp only
      rw [isIdent_sym h2, if_neg (by decide), if_pos (is_iff.2 h2), take_bind]
      exact runs_bind (localFunction_runs hs h3 h4) runs_pure
    · rw [current_bind]
      dsimp only
      rw [if_neg (by simp [is_sym h1]), if_pos (is_iff.2 h1), take_bind, takeIf_pos (is_iff.2 h2)]
      exact runs_bind (localFunction_runs hs h3 h4) runs_pure
  | @numericFor f i q m d e x y o b s h1 h2 h2' h3 h4 h5 h6 h7 h8 h9 h10 =>
    have hf : (Node.node .stmtNumericFor [.node .numericFor [.tok f, .tok i, .tok q, x, .tok m, y, optTok (o.map (·.1)), optNode (o.map (·.2)), .tok d, b.node, .tok e, optNode s]]).flat =
        f :: i :: (yield s ++ q :: (x.flat ++ m :: (y.flat ++ (yield o ++ d :: (yield b ++ [e]))))) := by
      rcases o with _ | ⟨o1, o2⟩ <;> rcases s with _ | s <;> flat
    rw [hf]
    simp only [List.cons_append, List.append_assoc, List.nil_append]
    refine parseStmt_sym h1 ?_
    simp only [reduceCtorEq, if_false, if_true]
    rw [take_bind]
    exact forNumeric_runs hs h9 h2 h2' h3 h4 h5 h6 h7 h8 h10
  | @repeat_ r u b x h1 h2 h3 h4 =>
    have hf : (Node.node .stmtRepeat [.node .repeatBlock [.tok r, b.node, .tok u, x]]).flat = r :: (yield b ++ u :: x.flat) := by flat
    rw [hf]
    simp only [List.cons_append, List.append_assoc]
    refine parseStmt_sym h1 ?_
    simp only [reduceCtorEq, if_false, if_true]
    rw [take_bind]
    exact repeat_runs hs h2 h3 h4 (after_stop ht (fun h => by rw [endsCallable]; exact h) fun h => by rw [endsAsserts]; exact h)
  | @while_ w d e b x h1 h2 h3 h4 h5 =>
    have hf : (Node.node .stmtWhile [.node .whileBlock [.tok w, x, .tok d, b.node, .tok e]]).flat = w :: (x.flat ++ d :: (yield b ++ [e])) := by flat
    rw [hf]
    simp only [List.cons_append, List.append_assoc, List.nil_append]
    refine parseStmt_sym h1 ?_
    simp only [reduceCtorEq, if_false, if_true]
    rw [take_bind]
    exact runs_bind (while_runs hs h2 h3 h4 h5) runs_pure
  | @compound v x o u h1 h2 h3 h4 =>
    have hf : (Node.node .stmtCompound [.node .compoundAssignment [v, .node (.compoundOp o) [.tok u], x]]).flat = v.flat ++ u :: x.flat := by flat
    have key := compound_runs (l := l) hs h1 h2 h3 h4 (after_stop ht (fun h => by rw [endsCallable]; exact h) fun h => by rw [endsAsserts]; exact h)
    obtain ⟨w, k, g1, -, g2⟩ := var_first h1
    rw [hf, List.append_assoc, List.cons_append]
    rw [g1] at key ⊢
    exact parseStmt_expr g2 key
  | @goto u n h1 h2 h3 =>
    have hf : (Node.node .stmtGoto [.node .gotoStmt [.tok u, .tok n]]).flat = [u, n] := by flat
    rw [hf]
    simp only [List.cons_append, List.nil_append]
    refine parseStmt_sym h2 ?_
    have h4 : (c.feat.lua52 || c.feat.luajit || c.feat.cfxlua) = true := by
      simp only [Bool.or_eq_true_iff] at h1 ⊢
      rcases h1 with h1 | h1
      · simp only [Cfg.lua52, Cfg.has, LuaVersion.has, Bool.and_eq_true_iff] at h1; exact .inl (.inl h1.1)
      · simp only [Cfg.luajit, Cfg.has, LuaVersion.has, Bool.and_eq_true_iff] at h1; exact .inl (.inr h1.1)
    simp only [reduceCtorEq, if_false, h4, and_self, if_true]
    unfold gotoStmt
    rw [if_pos h1, take_bind, takeIf_pos (isIdent_nam h3)]
    exact runs_pure
  | @label a n b h1 h2 h3 h4 =>
    have hf : (Node.node .stmtLabel [.node .label [.tok a, .tok n, .tok b]]).flat = [a, n, b] := by flat
    rw [hf]
    simp only [List.cons_append, List.nil_append]
    refine parseStmt_sym h2 ?_
    simp only [reduceCtorEq, if_false, and_false, h1, and_self, if_true]
    unfold labelStmt
    rw [take_bind, takeIf_pos (isIdent_nam h3)]
    dsimp only
    rw [require_pos (is_iff.2 h4)]
    exact runs_pure
  | @type n hl h1 =>
    obtain ⟨u, x, e, g, ty, rfl, h2, h3, h4, h5, h6, h7⟩ := view_typeDecl hl h1
    have hf : (Node.node .stmtType [.node .typeDecl [.tok u, .tok x, optNode g, .tok e, ty]]).flat = u :: x :: (yield g ++ e :: ty.flat) := by
      rw [flat_stmtType_plain, List.flatMap_cons, typeDecl_flat]; simp
    rw [hf]
    simp only [List.cons_append, List.append_assoc]
    refine parseStmt_expr (.inl ⟨_, h2⟩) (typeStmt_runs hl hs h2 (plain_nam h3) ?_)
    unfold typeStmt
    rw [consumeIf_neg (is_nam h3)]
    exact runs_bind (typeDeclaration_runs hl hs h3 h4 h5 h6 h7 (after_follow ht ty)) runs_pure
  | @exportedType a n hl h0 h1 =>
    obtain ⟨u, x, e, g, ty, rfl, h2, h3, h4, h5, h6, h7⟩ := view_typeDecl hl h1
    have hf : (Node.node .stmtExportedType [.node .exportedTypeDecl [.tok a, .node .typeDecl [.tok u, .tok x, optNode g, .tok e, ty]]]).flat = a :: u :: x :: (yield g ++ e :: ty.flat) := by
      have : (Node.node .exportedTypeDecl [.tok a, .node .typeDecl [.tok u, .tok x, optNode g, .tok e, ty]]).flat = a :: (Node.node .typeDecl [.tok u, .tok x, optNode g, .tok e, ty]).flat := by flat
      rw [flat_stmtExportedType_plain, List.flatMap_cons, this, typeDecl_flat]; simp
    rw [hf]
    simp only [List.cons_append, List.append_assoc]
    refine parseStmt_expr (.inl ⟨_, h0⟩) (exportStmt_runs hl hs h0 (plain_nam ⟨_, h2⟩) ?_)
    unfold exportStmt
    rw [takeIf_pos (isNamed_iff.2 h2)]
    dsimp only
    rw [consumeIf_neg (is_nam h3)]
    exact runs_bind (typeDeclaration_runs hl hs h3 h4 h5 h6 h7 (after_follow ht ty)) runs_pure
  | @typeFunction n hl h1 =>
    obtain ⟨u, f, x, b, rfl, h2, h3, h4, h5⟩ := view_typeFunction h1
    have hf : (Node.node .stmtTypeFunction [.node .typeFunction [.tok u, .tok f, .tok x, b]]).flat = u :: f :: x :: b.flat := by
      rw [flat_stmtTypeFunction_plain, List.flatMap_cons, typeFunction_flat]; simp
    rw [hf]
    simp only [List.cons_append]
    refine parseStmt_expr (.inl ⟨_, h2⟩) (typeStmt_runs hl hs h2 (plain_sym h3 (by decide)) ?_)
    unfold typeStmt
    rw [consumeIf_pos (is_iff.2 h3)]
    exact runs_bind (typeFunction_runs hs h4 h5) runs_pure
  | @exportedTypeFunction a n hl h0 h1 =>
    obtain ⟨u, f, x, b, rfl, h2, h3, h4, h5⟩ := view_typeFunction h1
    have hf : (Node.node .stmtExportedTypeFunction [.node .exportedTypeFunction [.tok a, .node .typeFunction [.tok u, .tok f, .tok x, b]]]).flat = a :: u :: f :: x :: b.flat := by
      have : (Node.node .exportedTypeFunction [.tok a, .node .typeFunction [.tok u, .tok f, .tok x, b]]).flat = a :: (Node.node .typeFunction [.tok u, .tok f, .tok x, b]).flat := by flat
      rw [flat_stmtExportedTypeFunction_plain, List.flatMap_cons, this, typeFunction_flat]; simp
    rw [hf]
    simp only [List.cons_append]
    refine parseStmt_expr (.inl ⟨_, h0⟩) (exportStmt_runs hl hs h0 (plain_nam ⟨_, h2⟩) ?_)
    unfold exportStmt
    rw [takeIf_pos (isNamed_iff.2 h2)]
    dsimp only
    rw [consumeIf_pos (is_iff.2 h3)]
    exact runs_bind (typeFunction_runs hs h4 h5) runs_pure

theorem noStmt_runs {t : TokRef} (h : Closes t ∨ Sym t .kReturn ∨ Sym t .kBreak) : runs (parseStmt self c) (t :: l) .notFound (t :: l) := by
  have key : ∀ {s : Symbol}, Sym t s → s ∈ [Symbol.kEnd, .kElse, .kElseIf, .kUntil, .kReturn, .kBreak] → runs (parseStmt self c) (t :: l) .notFound (t :: l) := by
    intro s hs hm
    refine parseStmt_sym hs ?_
    simp only [List.mem_cons, List.not_mem_nil, or_false] at hm
    rcases hm with rfl | rfl | rfl | rfl | rfl | rfl <;> (simp only [reduceCtorEq, if_false, and_false]; exact runs_pure)
  rcases h with (⟨s, hs, h⟩ | h) | h | h
  · refine key h ?_
    clear h
    revert s
    decide
  · unfold parseStmt
    rw [current_bind]
    dsimp only
    simp only [is_eof h, isIdent_eof h, Bool.or_self, Bool.and_false, Bool.false_eq_true, if_false]
    exact runs_pure
  · exact key h (by decide)
  · exact key h (by decide)

/-! ## Blocks -/

/-- What may follow a last statement: nothing of the block, or another last statement. -/
def LastEnd (t : TokRef) : Prop := Closes t ∨ Sym t .kReturn ∨ Sym t .kBreak

theorem close_no {t : TokRef} (h : LastEnd t ∨ Sym t .semicolon) : startsExpr c t = false := by
  rcases h with ((⟨s, hs, h⟩ | h) | h | h) | h
  · simp only [List.mem_cons, List.not_mem_nil, or_false] at hs
    rcases hs with rfl | rfl | rfl | rfl <;>
      simp [startsExpr, is_sym h, isString_sym h, isNumber_sym h, isIdent_sym h, startsUnary, interpKind_sym h]
  · simp [startsExpr, is_eof h, isString_eof h, isNumber_eof h, isIdent_eof h, startsUnary, interpKind_eof h]
  all_goals simp [startsExpr, is_sym h, isString_sym h, isNumber_sym h, isIdent_sym h, startsUnary, interpKind_sym h]

theorem close_stop {t : TokRef} (h : LastEnd t ∨ Sym t .semicolon) (e : Node) : Stop c e t := by
  rcases h with ((⟨s, hs, h⟩ | h) | h | h) | h
  · refine stop_sym h ?_ e
    clear h
    revert s
    decide
  · exact stop_eof h e
  all_goals exact stop_sym h rfl e

theorem close_is {t : TokRef} (h : Closes t) {q : Symbol} (hq : q ∉ [Symbol.kEnd, .kElse, .kElseIf, .kUntil]) : is q t = false := by
  rcases h with ⟨s, hs, h⟩ | h
  · rw [is_sym h]
    simp only [decide_eq_false_iff_not]
    rintro rfl
    exact hq hs
  · exact is_eof h

theorem lastEnd_is {t : TokRef} (h : LastEnd t) {q : Symbol} (hq : q ∉ [Symbol.kEnd, .kElse, .kElseIf, .kUntil, .kReturn, .kBreak]) : is q t = false := by
  rcases h with h | h | h
  · exact close_is h fun hm => hq (by simp only [List.mem_cons, List.not_mem_nil, or_false] at hm ⊢; rcases hm with h | h | h | h <;> simp [h])
  all_goals
    rw [is_sym h]
    simp only [decide_eq_false_iff_not]
    rintro rfl
    exact hq (by decide)

/-- `return` without values and without a semicolon. -/
def Bare (s : Node × Option TokRef) : Prop := ∃ t, s = (returnNode t .new, none)

/-- What may follow the given last statement. -/
def LastNext (s : Node × Option TokRef) (t : TokRef) : Prop := LastEnd t ∨ Nam t ∧ ¬ Bare s

theorem lastNext_is {s : Node × Option TokRef} {t : TokRef} (h : LastNext s t) {q : Symbol} (hq : q ∉ [Symbol.kEnd, .kElse, .kElseIf, .kUntil, .kReturn, .kBreak]) :
    is q t = false := by
  rcases h with h | ⟨h, -⟩
  · exact lastEnd_is h hq
  · exact is_nam h

theorem semi_runs {o : Option TokRef} (ho : ∀ u, o = some u → Sym u .semicolon) {t : TokRef} (ht : is .semicolon t = false) {f : Option TokRef → M β} {v : β} {l' : List TokRef}
    (h : runs (f o) (t :: l) v l') : runs (consumeIf .semicolon >>= f) (yield o ++ t :: l) v l' := by
  cases o with
  | none => rw [yield_none, List.nil_append, consumeIf_neg ht]; exact h
  | some u => rw [yield_some, yield_tok, List.cons_append, consumeIf_pos (is_iff.2 (ho u rfl))]; exact h

/-- The last statement is not `continue`. -/
def Ends? (s : Node × Option TokRef) : Prop := kindOf s.1 ≠ some .lastContinue

theorem last_runs (hs : RecF c self) {s : Node × Option TokRef} (h : SemiF c .lastStmt s) (hk : Ends? s) {t : TokRef} (ht : LastNext s t) :
    runs (parseLastStmt self) (yield s ++ t :: l) (.value s) (t :: l) := by
  obtain ⟨n, o⟩ := s
  obtain ⟨h1, h2⟩ := h
  dsimp only at h1 h2
  have hsemi := lastNext_is ht (q := .semicolon) (by decide)
  have hd : ∃ w k, yield o ++ t :: l = w :: k ∧ ((LastEnd w ∨ Sym w .semicolon) ∨ Nam w ∧ ¬ Bare (n, o)) ∧ is .comma w = false := by
    cases o with
    | none => exact ⟨t, l, rfl, ht.imp_left .inl, lastNext_is ht (by decide)⟩
    | some u => exact ⟨u, t :: l, rfl, .inl (.inr (h2 u rfl)), by simp [is_sym (h2 u rfl)]⟩
  obtain ⟨w, k, hw, hw1, hw2⟩ := hd
  rw [yield_prod, yield_node, List.append_assoc]
  have hv := view_last h1
  unfold parseLastStmt
  cases hv with
  | continue_ => exact absurd rfl hk
  | @break_ u h3 =>
    have hf : (Node.node .lastBreak [.tok u]).flat = [u] := by flat
    rw [hf, List.cons_append, List.nil_append, takeIf_pos (by simp [is_sym h3])]
    dsimp only
    rw [if_neg (by simp [is_sym h3])]
    exact semi_runs h2 hsemi runs_pure
  | @return_ u es h3 h4 =>
    have hf : (returnNode u es).flat = u :: yield es := by unfold returnNode; flat
    rw [hf, List.cons_append, takeIf_pos (by simp [is_sym h3])]
    dsimp only
    rw [if_pos (is_iff.2 h3), hw]
    rcases h4 with rfl | h4
    · rw [yield_new, List.nil_append]
      have hw1 := hw1.resolve_right fun h => by
        obtain ⟨h5, h6⟩ := h
        cases o with
        | none => exact h6 ⟨_, rfl⟩
        | some x => cases hw; exact absurd (is_iff.2 (h2 _ rfl)) (by rw [is_nam h5]; simp)
      refine runs_bind (expressionList_none hs (close_no hw1)) ?_
      dsimp only
      rw [← hw]
      exact semi_runs h2 hsemi runs_pure
    · refine runs_bind (expressionList_runs hs h4 hw2 fun e _ => hw1.elim (close_stop · e) fun h => stop_nam h.1 e) ?_
      dsimp only
      rw [← hw]
      exact semi_runs h2 hsemi runs_pure

/-- What may follow a block with the given last statement. -/
def BlockEnd (o : Option (Node × Option TokRef)) (t : TokRef) : Prop := Closes t ∨ ∃ s, o = some s ∧ LastNext s t

theorem blockEnd_runs (hs : RecF c self) {o : Option (Node × Option TokRef)} (ho : ∀ s, o = some s → SemiF c .lastStmt s ∧ Ends? s) {t : TokRef} (ht : BlockEnd o t)
    (ss : List (Node × Option TokRef)) : runs (blockEnd self ss) (yield o ++ t :: l) (.value ⟨ss, o⟩) (t :: l) := by
  unfold blockEnd
  cases o with
  | none =>
    rw [yield_none, List.nil_append]
    replace ht : Closes t := ht.resolve_right (by simp)
    refine runs_bind (a := .notFound) (l1 := t :: l) ?_ runs_pure
    unfold parseLastStmt
    rw [takeIf_neg (by simp [close_is ht])]
    exact runs_pure
  | some s =>
    rw [yield_some]
    exact runs_bind (last_runs hs (ho s rfl).1 (ho s rfl).2 (ht.elim (.inl ∘ .inl) fun ⟨_, h, h'⟩ => by cases h; exact h')) runs_pure

theorem blockLast_runs (hs : RecF c self) {o : Option (Node × Option TokRef)} (ho : ∀ s, o = some s → SemiF c .lastStmt s)
    {t : TokRef} (ht : BlockEnd o t) (n : Nat) (acc : List (Node × Option TokRef)) :
    runs (blockLoop self c (n + 1) acc) (yield o ++ t :: l) (.value ⟨acc, o⟩) (t :: l) := by
  unfold blockLoop
  have none_ : ∀ {w : TokRef} {k : List TokRef}, yield o ++ t :: l = w :: k → (Closes w ∨ Sym w .kReturn ∨ Sym w .kBreak) → (∀ s, o = some s → Ends? s) →
      runs (parseStmt self c >>= fun r => match r with
        | .value (.stmt s) => do
          let semicolon ← consumeIf .semicolon
          blockLoop self c n (acc ++ [(s, semicolon)])
        | .value (.last s) => do
          let semicolon ← consumeIf .semicolon
          return .value ⟨acc, some (s, semicolon)⟩
        | .notFound => blockEnd self acc
        | .moved => if acc.isEmpty then return .moved else blockEnd self acc) (yield o ++ t :: l) (.value ⟨acc, o⟩) (t :: l) := by
    intro w k hw hw' hk
    have := blockEnd_runs (l := l) hs (fun s h => ⟨ho s h, hk s h⟩) ht acc
    rw [hw] at this ⊢
    refine runs_bind (noStmt_runs hw') ?_
    exact this
  cases o with
  | none => exact none_ rfl (.inl (ht.resolve_right (by simp))) nofun
  | some s =>
    obtain ⟨m, q⟩ := s
    obtain ⟨h0, h0'⟩ := ho _ rfl
    dsimp only at h0 h0'
    have ht' : LastNext (m, q) t := ht.elim (.inl ∘ .inl) fun ⟨_, h, h'⟩ => by cases h; exact h'
    obtain ⟨w, k, h1, h2⟩ := last_first h0
    have key : (Sym w .kReturn ∨ Sym w .kBreak) → _ := fun h3 => none_ (k := k ++ (yield q ++ t :: l)) (by simp [h1]) (.inr h3) fun s hs hk => by
      cases hs
      have hv := view_last h0
      cases hv with
      | @continue_ u hl h4 =>
        have hf : (Node.node .lastContinue [.tok u]).flat = [u] := by flat
        rw [hf] at h1
        cases h1
        unfold Wrd at h4
        rcases h3 with h3 | h3 <;> rw [h3] at h4 <;> cases h4
      | break_ => cases hk
      | return_ => cases hk
    rcases h2 with h2 | h2 | ⟨hl, h2, rfl, rfl⟩
    · exact key (.inl h2)
    · exact key (.inr h2)
    · have hf : (Node.node .lastContinue [.tok w]).flat = [w] := by flat
      have hd : ∃ u k, yield q ++ t :: l = u :: k ∧ Plain c u := by
        cases q with
        | none =>
          refine ⟨t, l, rfl, ?_⟩
          rcases ht' with ((⟨s, hs, h⟩ | h) | h | h) | ⟨h, -⟩
          · refine plain_sym h ?_
            clear h
            revert s
            decide
          · exact plain_eof h
          · exact plain_sym h (by decide)
          · exact plain_sym h (by decide)
          · exact plain_nam h
        | some u => exact ⟨u, t :: l, rfl, plain_sym (h0' u rfl) (by decide)⟩
      obtain ⟨u, k, hu, hu'⟩ := hd
      rw [yield_some, yield_prod, yield_node, hf, List.append_assoc, List.singleton_append, hu]
      refine runs_bind (parseStmt_expr (.inl ⟨_, h2⟩) (continue_runs hl hs h2 hu')) ?_
      dsimp only
      rw [← hu]
      exact semi_runs h0' (lastNext_is ht' (by decide)) runs_pure

theorem blockLoop_runs (hc : c.feat.Closed) (hs : RecF c self) {o : Option (Node × Option TokRef)} (ho : ∀ s, o = some s → SemiF c .lastStmt s)
    {t : TokRef} (ht : BlockEnd o t) : ∀ {ss : List (Node × Option TokRef)}, (∀ s ∈ ss, SemiF c .stmt s) → distincts (ss.map stmtNode) →
    (c.luau = true → unasserteds (ss.map stmtNode)) → ∀ n acc,
    runs (blockLoop self c n acc) (yield ss ++ (yield o ++ t :: l)) (.value ⟨acc ++ ss, o⟩) (t :: l)
  | _, _, _, _, 0, _ => runs_diverge
  | [], _, _, _, n + 1, acc => by
    rw [yield_nil, List.nil_append, List.append_nil]
    exact blockLast_runs hs ho ht n acc
  | (m, q) :: ss, h, hd, hda, n + 1, acc => by
    have ih := blockLoop_runs hc hs ho ht (ss := ss) (fun s hs => h s (.tail _ hs)) (by
      cases ss with
      | nil => trivial
      | cons s ss => exact hd.2) (fun hl => by
      cases ss with
      | nil => trivial
      | cons s ss => exact (hda hl).2) n (acc ++ [(m, q)])
    obtain ⟨h1, h2⟩ := h _ (.head _)
    dsimp only at h1 h2
    have hnext : ∃ w k, yield ss ++ (yield o ++ t :: l) = w :: k ∧ Next w ∧ (q = none → endsCallable m = true → is .leftParen w = false) ∧
        (q = none → c.luau = true → endsAsserts m = true → is .twoColons w = false) := by
      cases ss with
      | nil =>
        cases o with
        | none =>
          replace ht : Closes t := ht.resolve_right (by simp)
          exact ⟨t, l, rfl, after_closes ht, fun _ _ => close_is ht (by decide), fun _ _ _ => close_is ht (by decide)⟩
        | some s =>
          obtain ⟨m', q'⟩ := s
          obtain ⟨w, k, g1, g2⟩ := last_first (ho _ rfl).1
          dsimp only at g1
          refine ⟨w, k ++ (yield q' ++ t :: l), by simp [g1], ?_⟩
          rcases g2 with g2 | g2 | ⟨-, g2, -⟩
          · exact ⟨.inr (.inr ⟨_, by decide, g2⟩), fun _ _ => by simp [is_sym g2], fun _ _ _ => by simp [is_sym g2]⟩
          · exact ⟨.inr (.inr ⟨_, by decide, g2⟩), fun _ _ => by simp [is_sym g2], fun _ _ _ => by simp [is_sym g2]⟩
          · exact ⟨.inl ⟨_, g2⟩, fun _ _ => is_nam ⟨_, g2⟩, fun _ _ _ => is_nam ⟨_, g2⟩⟩
      | cons s ss =>
        obtain ⟨m', q'⟩ := s
        obtain ⟨w, k, g1, g2⟩ := stmt_first (view_stmt (h (m', q') (.tail _ (.head _))).1)
        have h5 : (stmtNode (m', q')).flat = w :: (k ++ yield q') := by rw [flat_stmtNode, yield_prod, yield_node, g1]; rfl
        refine ⟨w, k ++ (yield q' ++ (yield ss ++ (yield o ++ t :: l))), by simp [g1], g2, fun hq hm => ?_, fun hq hl hm => ?_⟩
        · subst hq
          have h3 : distinct (stmtNode (m, none)) (stmtNode (m', q')) := hd.1
          have h4 := h3 rfl hm
          rw [startsParen, h5] at h4
          simp only [List.head?_cons, Option.any_some] at h4
          rw [is_false_iff]
          simpa using h4
        · subst hq
          have h3 : unasserted (stmtNode (m, none)) (stmtNode (m', q')) := (hda hl).1
          have h4 := h3 rfl hm
          rw [startsTok, h5] at h4
          simp only [List.head?_cons, Option.any_some, tokenIs] at h4
          rw [is_false_iff]
          simpa using h4
    obtain ⟨w, k, hw, hw1, hw2, hw3⟩ := hnext
    unfold blockLoop
    rw [yield_cons, yield_prod, yield_node, List.append_assoc, List.append_assoc]
    have key : runs (parseStmt self c) (m.flat ++ (yield q ++ (yield ss ++ (yield o ++ t :: l)))) (.value (.stmt m)) (yield q ++ (yield ss ++ (yield o ++ t :: l))) := by
      cases q with
      | none =>
        rw [yield_none, List.nil_append, hw]
        exact stmt_runs hc hs (view_stmt h1) ⟨.inl hw1, hw2 rfl, hw3 rfl⟩
      | some u =>
        have hu := h2 u rfl
        exact stmt_runs hc hs (view_stmt h1) ⟨.inr hu, fun _ => by simp [is_sym hu], fun _ _ => by simp [is_sym hu]⟩
    refine runs_bind key ?_
    dsimp only
    rw [hw] at ih ⊢
    refine semi_runs h2 (next_is hw1 (by decide)) ?_
    simpa using ih

theorem block_runs (hc : c.feat.Closed) (hs : RecF c self) {b : Blk} (h : BlkF c b) {t : TokRef} (ht : BlockEnd b.last t) :
    runs (parseBlock self c) (yield b ++ t :: l) (.value b) (t :: l) := by
  obtain ⟨ss, o⟩ := b
  unfold parseBlock
  rw [fuel_bind, yield_blk, List.append_assoc]
  exact blockLoop_runs hc hs h.last ht h.stmts h.distincts h.asserts _ []

/-! ## All parser functions -/

theorem parsers_runs (hc : c.feat.Closed) : ∀ n, RecF c (parsers c n)
  | 0 => ⟨fun _ _ _ _ _ => runs_diverge, fun _ _ _ _ _ => runs_diverge, fun _ _ _ => runs_diverge, fun _ _ _ _ _ _ _ => runs_diverge, fun _ _ _ _ _ _ _ _ _ => runs_diverge,
    fun _ _ _ _ _ _ _ => runs_diverge, fun _ _ _ _ _ _ _ _ => runs_diverge⟩
  | n + 1 => by
    have hs := parsers_runs hc n
    exact ⟨fun b t l h ht => block_runs hc hs h (.inl ht), fun e t l h ht => expression_runs hs h ht, fun t l h => noExpression_runs h,
      fun e t l h hk ht ha => primary_runs hs h hk ht ha, fun h T p t l hT hp ht ha => climb_runs hs ht ha hT hp h,
      fun hl ty t l h h1 ht => type_runs hs hl h h1 ht, fun hl ty t l h h1 h2 ht => typeOrPack_runs hs hl h h1 h2 ht⟩

theorem topBlock_runs (hc : c.feat.Closed) {b : Blk} (h : BlkF c b) {t : TokRef} (ht : BlockEnd b.last t) :
    runs (topBlock c) (yield b ++ t :: l) (.value b) (t :: l) := by
  have := block_runs hc (parsers_runs hc ((yield b ++ t :: l).map .ok : Toks).length) (l := l) h ht
  unfold runs at this ⊢
  unfold topBlock
  exact this

/-- The loop after the first block drops another last statement. -/
theorem mainLoop_runs (hc : c.feat.Closed) {b : Blk} {x : Option (Node × Option TokRef)} (hx : ∀ s, x = some s → SemiF c .lastStmt s)
    {t : TokRef} (ht : t.isEof = true) {n : Nat} {last : Bool} : mainLoop c last (n + 1) ⟨b, (yield x ++ [t]).map .ok, [], 0⟩ = .diverge ∨
      mainLoop c last (n + 1) ⟨b, (yield x ++ [t]).map .ok, [], 0⟩ = .ok ⟨b, [.ok t], [], 0⟩ := by
  cases x with
  | none => simp [mainLoop, mainStep, ht]
  | some s =>
    obtain ⟨u, k, h1, h2⟩ := last_first (hx s rfl).1
    have hu : u.isEof = false := by
      simp only [TokRef.isEof, beq_eq_false_iff_ne]
      rcases h2 with h2 | h2 | ⟨-, h2, -⟩ <;> rw [h2] <;> simp [TokenType.kind]
    obtain ⟨m, q⟩ := s
    dsimp only at h1
    have hb : BlkF c ⟨[], some (m, q)⟩ := ⟨by simp, hx, trivial, fun _ => trivial⟩
    have := topBlock_runs (l := []) hc hb (.inl (.inr ht))
    have hy : yield (⟨[], some (m, q)⟩ : Blk) = yield (some (m, q)) := by simp [yield_blk]
    rw [hy] at this
    have hs : yield (some (m, q)) ++ [t] = u :: (k ++ (yield q ++ [t])) := by simp [h1]
    rw [hs] at this ⊢
    generalize k ++ (yield q ++ [t]) = j at this ⊢
    rcases this with h3 | h3
    · left
      simp only [List.map_cons] at h3
      simp [mainLoop, mainStep, hu, moreStatements, h3]
    · right
      simp only [List.map_cons] at h3
      simp [mainLoop, mainStep, hu, moreStatements, h3, skipToken, ht]

/-- The parser accepts the tokens of a block of the grammar, with that block, even with one more last statement. -/
theorem parseTokens_runs (hc : c.feat.Closed) {b : Blk} (h : BlkF c b) {x : Option (Node × Option TokRef)}
    (hx : ∀ s, x = some s → SemiF c .lastStmt s) (hbx : b.last = none → x = none)
    (hbr : ∀ s s', b.last = some s → x = some s' → Bare s → kindOf s'.1 ≠ some .lastContinue) {t : TokRef} (ht : t.isEof = true)
    (hd : parseTokens c ((yield b ++ (yield x ++ [t])).map .ok) ≠ .diverge) :
    parseTokens c ((yield b ++ (yield x ++ [t])).map .ok) = .ok ⟨⟨b.node, t⟩, [], 0⟩ := by
  have he : ∃ u k, yield x ++ [t] = u :: k ∧ BlockEnd b.last u := by
    cases x with
    | none => exact ⟨t, [], rfl, .inl (.inr ht)⟩
    | some s =>
      obtain ⟨u, k, h1, h2⟩ := last_first (hx s rfl).1
      obtain ⟨m, q⟩ := s
      dsimp only at h1
      refine ⟨u, k ++ (yield q ++ [t]), by simp [h1], .inr ?_⟩
      cases hn : b.last with
      | none => cases hbx hn
      | some s =>
        refine ⟨s, rfl, ?_⟩
        rcases h2 with h2 | h2 | ⟨-, h2, -, h3⟩
        · exact .inl (.inr (.inl h2))
        · exact .inl (.inr (.inr h2))
        · refine .inr ⟨⟨_, h2⟩, fun h => hbr _ _ hn rfl h ?_⟩
          dsimp only at h3
          rw [h3]
          rfl
  obtain ⟨u, k, hu, hu'⟩ := he
  have h0 := topBlock_runs (l := k) hc h hu'
  rw [← hu] at h0
  rcases h0 with h1 | h1
  · exfalso
    apply hd
    unfold parseTokens
    rw [h1]
  · unfold parseTokens at hd ⊢
    rw [h1] at hd ⊢
    dsimp only [firstBlock] at hd ⊢
    rcases mainLoop_runs hc hx ht (b := b) (n := ((yield x ++ [t]).map .ok : Toks).length) (last := b.last.isSome) with h2 | h2
    · rw [h2] at hd
      exact absurd rfl hd
    · rw [h2]
      simp [finish, ht]

end FM.Parser.Forward
