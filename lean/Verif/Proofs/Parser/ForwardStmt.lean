import Verif.Proofs.Parser.ForwardOp

/-! Helper lemmas: the parser accepts the statements of the grammar. -/

namespace FM.Parser.Forward
open FM.Spec FM.Parser FM.Parser.Clean

variable {c : Cfg} {α β : Type} {self : Rec} {l : List TokRef}

/-! ## What follows a statement -/

/-- The token after a statement. -/
structure After (c : Cfg) (n : Node) (t : TokRef) : Prop where
  next : Next t ∨ Sym t .semicolon
  callable : endsCallable n = true → is .leftParen t = false
  assertion : c.luau = true → endsAsserts n = true → is .twoColons t = false

theorem after_is {n : Node} {t : TokRef} {q : Symbol} (h : After c n t) (hq : q ∉ nexts) (hs : q ≠ .semicolon) : is q t = false := by
  rcases h.next with h | h
  · exact next_is h hq
  · rw [is_sym h]; simpa using hs.symm

theorem after_string {n : Node} {t : TokRef} (h : After c n t) : t.isString = false := by
  rcases h.next with (h | h | ⟨s, hs, h⟩) | h
  · exact isString_nam h
  · exact isString_eof h
  · exact isString_sym h
  · exact isString_sym h

theorem after_prec {n : Node} {t : TokRef} (h : After c n t) : BinOp.precedenceOfToken c.feat t = none := by
  rcases h.next with (h | h | ⟨s, hs, h⟩) | h
  · exact prec_nam h
  · exact prec_eof h
  · refine prec_sym h ?_
    clear h
    revert s
    decide
  · exact prec_sym h rfl

theorem after_suffix {n : Node} {t : TokRef} (h : After c n t) (hn : endsCallable n = true) : startsSuffix c t = false := by
  simp only [startsSuffix, h.callable hn, after_string h, after_is h (q := .questionMarkDot) (by decide) (by decide), after_is h (q := .dot) (by decide) (by decide),
    after_is h (q := .leftBracket) (by decide) (by decide), after_is h (q := .leftBrace) (by decide) (by decide), after_is h (q := .colon) (by decide) (by decide),
    Bool.and_false, Bool.or_self]

theorem after_follow {n : Node} {t : TokRef} (h : After c n t) (ty : Node) : FollowT ty t := by
  rcases h.next with h | h
  · exact next_follow h ty
  · exact follow_sym h rfl ty

theorem after_name {n : Node} {t : TokRef} (h : After c n t) : NameEnd t := ⟨after_is h (by decide) (by decide), after_follow h⟩

theorem after_stop {n e : Node} {t : TokRef} (h : After c n t) (he : callable e = true → endsCallable n = true) (ha : asserts e = true → endsAsserts n = true) : Stop c e t :=
  ⟨after_prec h, fun hc => after_suffix h (he hc), fun hl hx => h.assertion hl (ha hx), fun _ ty _ => after_follow h ty⟩

theorem lastCallable_punct {es : Punctuated Node} {e : Node} (h : es.pairs.getLast? = some (.end e)) : lastCallable (punct es) = callable e := by
  simp [lastCallable, punct, Node.children, List.getLast?_map, h, pairNode]

theorem lastAsserts_punct {es : Punctuated Node} {e : Node} (h : es.pairs.getLast? = some (.end e)) : lastAsserts (punct es) = asserts e := by
  simp [lastAsserts, punct, Node.children, List.getLast?_map, h, pairNode]

/-! ## Lists that grow at the end -/

/-- What follows the first value of a list. -/
def restOf [Yield α] : List (Pair α) → List TokRef
  | [] => []
  | x :: ps => yield x.punctuation ++ yield ps

theorem push_eq {A : List (Pair α)} {a v : α} {u : TokRef} :
    Punctuated.pushPunctuated ⟨A ++ [.end a]⟩ v u = .returned () ⟨(A ++ [.punctuated a u]) ++ [.end v]⟩ := by
  simp [Punctuated.pushPunctuated, Punctuated.pop, Punctuated.push, Pair.punctuation, Pair.intoValue, Pair.intoTuple, Pair.new]

/-! ## Functions -/

theorem functionNameLoop_runs {o : Option (TokRef × TokRef)} (ho : ∀ p, o = some p → Sym p.1 .colon ∧ Nam p.2) {t : TokRef} (ht : is .colon t = false ∧ is .dot t = false) {ps : List (Pair TokRef)}
    (h : ListF (fun t => Nam t) .dot ps) : ∀ x ps', ps = x :: ps' → ∀ n A, runs (functionNameLoop n ⟨A ++ [.end x.value]⟩) (restOf ps ++ (yield o ++ t :: l))
      (.value (functionNameNode ⟨A ++ ps⟩ o)) (t :: l) := by
  induction h with
  | @last a ha =>
    rintro _ _ ⟨⟩ n A
    cases n with
    | zero => exact runs_diverge
    | succ n =>
      unfold functionNameLoop
      cases o with
      | none =>
        simp only [restOf, Pair.punctuation, yield_none, yield_nil, List.nil_append]
        rw [takeIf_neg (by simp [ht.1, ht.2])]
        exact runs_pure
      | some p =>
        obtain ⟨a', b⟩ := p
        obtain ⟨h1, h2⟩ := ho _ rfl
        simp only [restOf, Pair.punctuation, yield_none, yield_nil, List.nil_append, yield_some, yield_prod, yield_tok, List.cons_append]
        rw [takeIf_pos (by simp [is_sym h1])]
        dsimp only
        rw [takeIf_pos (isIdent_nam h2)]
        simp only [is_sym h1, reduceCtorEq, decide_false, decide_true, Bool.false_eq_true, if_false, if_true]
        exact runs_pure
  | @cons a u x ps ha hu hx ih =>
    rintro _ _ ⟨⟩ n A
    cases n with
    | zero => exact runs_diverge
    | succ n =>
      have hv : Nam x.value := by cases hx <;> assumption
      have hy : yield (x :: ps) = x.value :: restOf (x :: ps) := by
        cases x <;> simp [restOf, Pair.value, Pair.punctuation]
      unfold functionNameLoop
      simp only [restOf, Pair.punctuation, yield_some, yield_tok, List.cons_append, List.nil_append]
      rw [takeIf_pos (by simp [is_sym hu])]
      dsimp only
      rw [hy, List.cons_append, takeIf_pos (isIdent_nam hv)]
      simp only [is_sym hu, decide_true, if_true]
      have hp : (Pair.punctuated a u).value = a := rfl
      rw [hp, push_eq]
      have := ih x ps rfl n (A ++ [.punctuated a u])
      simpa using this

theorem functionName_flat {ns : Punctuated TokRef} {o : Option (TokRef × TokRef)} : (functionNameNode ns o).flat = yield ns ++ yield o := by
  have h3 : yield (⟨ns.pairs.map (Pair.map Node.tok)⟩ : Punctuated Node) = yield ns := yield_map fun _ _ => rfl
  unfold functionNameNode
  cases o with
  | none => simp [h3]
  | some p => obtain ⟨a, b⟩ := p; simp [h3]

theorem functionName_runs {n : Node} (h : Fits c (.cat .functionName) n) {t : TokRef} (ht : is .colon t = false ∧ is .dot t = false) : runs expectFunctionName (n.flat ++ t :: l) (.value n) (t :: l) := by
  obtain ⟨⟨ps⟩, o, rfl, h1, h2, h3⟩ := view_functionName h
  have h4 := listF_nonempty h1 h2
  have h5 := functionNameLoop_runs (l := l) h3 ht h4
  rw [functionName_flat, List.append_assoc]
  cases ps with
  | nil => cases h4
  | cons x ps =>
    have hv : Nam x.value := by cases h4 <;> assumption
    have hy : yield (⟨x :: ps⟩ : Punctuated TokRef) = x.value :: restOf (x :: ps) := by
      cases x <;> simp [restOf, Pair.value, Pair.punctuation]
    rw [hy]
    unfold expectFunctionName
    rw [List.cons_append, takeIf_pos (isIdent_nam hv)]
    dsimp only
    rw [fuel_bind]
    exact h5 x ps rfl _ []

theorem functionDecl_runs (hs : RecF c self) {as : List Node} {t : TokRef} {n b : Node} (h1 : Fits c (.cat .functionName) n) (h2 : Fits c (.cat .funcBody) b) :
    runs (expectFunctionDeclaration self c as t) (n.flat ++ (b.flat ++ l)) (some (.node .functionDecl [vec as, .tok t, n, b])) l := by
  obtain ⟨u, k, h3, h4⟩ := body_first h2
  have h5 := body_runs (l := l) hs h2
  unfold expectFunctionDeclaration
  rw [h3] at h5 ⊢
  refine runs_bind (functionName_runs h1 ?_) ?_
  · rcases h4 with h4 | h4 <;> simp [is_sym h4]
  dsimp only
  exact runs_bind h5 runs_pure

theorem localFunction_runs (hs : RecF c self) {as : List Node} {a t n : TokRef} {b : Node} (h1 : Nam n) (h2 : Fits c (.cat .funcBody) b) :
    runs (expectLocalFunction self c as a t) (n :: (b.flat ++ l)) (some (.node .localFunction [vec as, .tok a, .tok t, .tok n, b])) l := by
  unfold expectLocalFunction
  rw [takeIf_pos (isIdent_nam h1)]
  dsimp only
  exact runs_bind (body_runs hs h2) runs_pure

/-! ## `local` -/

theorem nameWithAttributes_runs (hs : RecF c self) {n : Name} (h : NameF c n) {t : TokRef} (ht : NameEnd t) (ht' : is .lessThan t = false) :
    runs (parseNameWithAttributes self c) (yield n ++ t :: l) (.value n) (t :: l) := by
  obtain ⟨x, at_, ty⟩ := n
  obtain ⟨h1, h2, h3⟩ := h
  dsimp only at h1 h2 h3
  unfold parseNameWithAttributes
  rw [yield_name]
  simp only [List.cons_append]
  rw [takeIf_pos (isIdent_nam h1)]
  dsimp only
  cases at_ with
  | none =>
    refine runs_bind (a := ⟨x, none, ty⟩) (l1 := t :: l) ?_ runs_pure
    simp only [yield_none, List.nil_append]
    unfold forceNameWithAttributes
    have key := forceName_runs (l := l) hs (x := x) h3 ht
    split
    · have hd : ∃ u k, yield ty ++ t :: l = u :: k ∧ is .lessThan u = false := by
        cases ty with
        | none => exact ⟨t, l, rfl, ht'⟩
        | some m =>
          obtain ⟨-, a, ty, rfl, h4, -⟩ := h3 m rfl
          have hf : (Node.node .typeSpec [.tok a, ty]).flat = a :: ty.flat := by flat
          exact ⟨a, ty.flat ++ t :: l, by rw [yield_some, yield_node, hf]; rfl, by simp [is_sym h4]⟩
      obtain ⟨u, k, hk, hu⟩ := hd
      rw [hk] at key ⊢
      rw [consumeIf_neg hu]; exact key
    · exact key
  | some m =>
    obtain ⟨⟨hv, a, b, y, rfl, h4, h5, h6⟩, h7⟩ := h2 m rfl
    subst h7
    refine runs_bind (a := ⟨x, some (.node .attribute [span a b, .tok y]), none⟩) (l1 := t :: l) ?_ runs_pure
    have hf : (Node.node .attribute [span a b, .tok y]).flat = [a, y, b] := by flat
    simp only [yield_some, yield_node, hf, yield_none, List.append_nil, List.cons_append, List.nil_append]
    unfold forceNameWithAttributes
    rw [if_pos hv, consumeIf_pos (is_iff.2 h4)]
    dsimp only
    rw [takeIf_pos (isIdent_nam h6)]
    dsimp only
    rw [requireOr_pos (is_iff.2 h5)]
    exact runs_pure

theorem names_runs (hs : RecF c self) {ns : Punctuated Name} (h : ListF (NameF c) .comma ns.pairs) {t : TokRef} (h1 : is .comma t = false) (h2 : is .lessThan t = false) (h3 : NameEnd t) :
    runs (oneOrMore (parseNameWithAttributes self c) .comma) (yield ns ++ t :: l) (.value ns) (t :: l) :=
  oneOrMore_runs (Q := fun _ t => is .lessThan t = false ∧ NameEnd t) (fun _ _ _ ha ht => nameWithAttributes_runs hs ha ht.2 ht.1)
    (fun _ _ _ ht => ⟨by simp [is_sym ht], nameEnd_sym ht rfl⟩) h h1 (fun _ _ => ⟨h2, h3⟩)

theorem noSpec {o : Option Node} (hl : c.feat.luau = false) (h : ∀ m, o = some m → SpecS c m) : o = none := by
  cases o with
  | none => rfl
  | some m =>
    have := luau_feat (h m rfl).1
    rw [hl] at this; cases this

theorem local_flat (hc : c.feat.Closed) {a : TokRef} {ns : Punctuated Name} (h : ListF (NameF c) .comma ns.pairs) {e : Option TokRef} {es : Punctuated Node} :
    (localNode c a ns e es).flat = a :: (yield ns ++ (yield e ++ yield es)) := by
  have hn : ∀ p ∈ ns.pairs, NameF c p.value := by
    generalize ns.pairs = ps at h
    induction h with
    | last ha => intro p hp; cases List.mem_singleton.1 hp; exact ha
    | cons ha _ _ ih =>
      intro p hp
      rcases List.mem_cons.1 hp with rfl | hp
      · exact ha
      · exact ih p hp
  have := flatNames_names (a := c.feat.lua54) (b := c.feat.luau) yield_name ns.pairs (fun hf p hp => ?_) (fun hf p hp => noSpec hf (hn p hp).2.2)
  · unfold localNode typeSpecs nameNodes attrs punct vec
    rw [flat_localAssignment]
    rw [show (if c.feat.lua54 = true then _ else _) = Clean.annotations c.feat.lua54 Name.attr ns.pairs from rfl,
      show (if c.feat.luau = true then _ else _) = Clean.annotations c.feat.luau Name.typeSpec ns.pairs from rfl, this]
    rw [show yield ns.pairs = yield ns from rfl]
    simp [← flat_punct', punct]
  · cases ha : p.value.attr with
    | none => rfl
    | some m =>
      exfalso
      have h1 := ((hn p hp).2.1 m ha).1.1
      have h54 : c.lua54 = false := by simp [Cfg.lua54, Cfg.has, LuaVersion.has, Features.has, hf]
      have hcfx : c.cfxlua = false := by
        have : c.feat.cfxlua = false := Bool.eq_false_iff.2 fun h' => by rw [hc.2.2 h'] at hf; cases hf
        simp [Cfg.cfxlua, Cfg.has, LuaVersion.has, Features.has, this]
      rw [h54, hcfx] at h1
      cases h1

theorem listName_first {P : Name → Prop} (hP : ∀ n, P n → Nam n.name) {ns : Punctuated Name} (h : ListF P .comma ns.pairs) : ∃ t k, yield ns = t :: k ∧ Nam t := by
  obtain ⟨ps⟩ := ns
  cases h with
  | @last a ha => exact ⟨a.name, yield a.attr ++ yield a.typeSpec, by simp [yield_name], hP a ha⟩
  | @cons a u x ps ha hu hx => exact ⟨a.name, yield a.attr ++ yield a.typeSpec ++ (u :: yield (x :: ps)), by simp [yield_name], hP a ha⟩

theorem localAssign_runs (hs : RecF c self) {a : TokRef} {ns : Punctuated Name} (h : ListF (NameF c) .comma ns.pairs) {t : TokRef}
    (h1 : is .comma t = false) (h2 : is .lessThan t = false) (h3 : is .equal t = false) (h4 : is .kIn t = false) (h5 : NameEnd t) :
    runs (expectLocalAssignment self c a) (yield ns ++ t :: l) (some (localNode c a ns none .new)) (t :: l) := by
  unfold expectLocalAssignment
  refine runs_bind (names_runs hs h h1 h2 h5) ?_
  dsimp only
  rw [consumeIfAny_neg]
  · exact runs_pure
  · unfold assignSymbols
    have h3' : t.isSymbol .equal = false := h3
    have h4' : t.isSymbol .kIn = false := h4
    split <;> simp [h3', h4']

theorem localValues_runs (hs : RecF c self) {a u : TokRef} {ns : Punctuated Name} (h : ListF (NameF c) .comma ns.pairs)
    (hu : Sym u .equal ∨ c.feat.cfxlua = true ∧ Sym u .kIn) {es : Punctuated Node} (he : ListF (Fits c .expr) .comma es.pairs) {t : TokRef}
    (h1 : is .comma t = false) (h2 : ∀ e, es.pairs.getLast? = some (.end e) → Stop c e t) :
    runs (expectLocalAssignment self c a) (yield ns ++ u :: (yield es ++ t :: l)) (some (localNode c a ns (some u) es)) (t :: l) := by
  unfold expectLocalAssignment
  have hu1 : is .comma u = false ∧ is .lessThan u = false ∧ NameEnd u := by
    rcases hu with h | ⟨-, h⟩
    · exact ⟨by simp [is_sym h], by simp [is_sym h], nameEnd_sym h rfl⟩
    · exact ⟨by simp [is_sym h], by simp [is_sym h], nameEnd_sym h rfl⟩
  refine runs_bind (names_runs hs h hu1.1 hu1.2.1 hu1.2.2) ?_
  dsimp only
  rw [consumeIfAny_pos]
  · dsimp only
    refine runs_bind (expressionList_runs hs he h1 h2) ?_
    exact runs_pure
  · unfold assignSymbols
    rcases hu with h | ⟨h', h⟩
    · split <;> simp [isSymbol_sym h]
    · rw [if_pos h']; simp [isSymbol_sym h]

/-! ## Loops -/

theorem blockOrEmpty_runs (hs : RecF c self) {b : Blk} (h : BlkF c b) {e t : TokRef} (he : Sym e .kEnd) {name : String} :
    runs (blockOrEmpty self c name t) (yield b ++ e :: l) (b, e) l := by
  unfold blockOrEmpty
  refine runs_bind (blockWithEnd_runs hs h he) ?_
  exact runs_pure

theorem numericForRest_runs (hs : RecF c self) {b : Blk} (h : BlkF c b) {f i q m d e : TokRef} {x y : Node} {o : Option (TokRef × Node)} {s : Option Node} (hd : Sym d .kDo) (he : Sym e .kEnd) :
    runs (numericForRest self c f ⟨i, none, s⟩ q x m y o) (d :: (yield b ++ e :: l))
      (some (.node .numericFor [.tok f, .tok i, .tok q, x, .tok m, y, optTok (o.map (·.1)), optNode (o.map (·.2)), .tok d, b.node, .tok e, optNode s])) l := by
  unfold numericForRest
  rw [require_pos (is_iff.2 hd)]
  dsimp only
  refine runs_bind (blockOrEmpty_runs hs h he) ?_
  exact runs_pure

theorem numericFor_runs (hs : RecF c self) {b : Blk} (h : BlkF c b) {f i q m d e : TokRef} {x y : Node} {o : Option (TokRef × Node)} {s : Option Node} (hx : Fits c .expr x)
    (hm : Sym m .comma) (hy : Fits c .expr y) (ho : ∀ p, o = some p → Sym p.1 .comma ∧ Fits c .expr p.2) (hd : Sym d .kDo) (he : Sym e .kEnd) :
    runs (expectNumericFor self c f ⟨i, none, s⟩) (q :: (x.flat ++ m :: (y.flat ++ (yield o ++ d :: (yield b ++ e :: l)))))
      (some (.node .numericFor [.tok f, .tok i, .tok q, x, .tok m, y, optTok (o.map (·.1)), optNode (o.map (·.2)), .tok d, b.node, .tok e, optNode s])) l := by
  unfold expectNumericFor
  rw [take_bind]
  refine runs_bind (hs.expr x m _ hx (stop_sym hm rfl x)) ?_
  dsimp only
  rw [require_pos (is_iff.2 hm)]
  dsimp only
  cases o with
  | none =>
    simp only [yield_none, List.nil_append]
    refine runs_bind (hs.expr y d _ hy (stop_sym hd rfl y)) ?_
    dsimp only
    rw [consumeIf_neg (by simp [is_sym hd])]
    exact numericForRest_runs hs h hd he
  | some p =>
    obtain ⟨m', z⟩ := p
    obtain ⟨h1, h2⟩ := ho _ rfl
    simp only [yield_some, yield_prod, yield_tok, yield_node, List.cons_append, List.nil_append]
    refine runs_bind (hs.expr y m' _ hy (stop_sym h1 rfl y)) ?_
    dsimp only
    rw [consumeIf_pos (is_iff.2 h1)]
    dsimp only
    refine runs_bind (hs.expr z d _ h2 (stop_sym hd rfl z)) ?_
    exact numericForRest_runs hs h hd he

theorem genericFor_runs (hs : RecF c self) {f i d e : TokRef} {ns : Punctuated Name} {es : Punctuated Node} {b : Blk} (hi : Sym i .kIn)
    (hes : ListF (Fits c .expr) .comma es.pairs) (hd : Sym d .kDo) (h : BlkF c b) (he : Sym e .kEnd) :
    runs (genericFor self c f ns) (i :: (yield es ++ d :: (yield b ++ e :: l))) (some (genericForNode c f ns i es d b e)) l := by
  unfold genericFor
  rw [takeIf_pos (is_iff.2 hi)]
  dsimp only
  refine runs_bind (expressionList_runs hs hes (by simp [is_sym hd]) fun e _ => stop_sym hd rfl e) ?_
  dsimp only
  rw [require_pos (is_iff.2 hd)]
  dsimp only
  refine runs_bind (blockOrEmpty_runs hs h he) ?_
  exact runs_pure

theorem forNames_runs (hs : RecF c self) {ns : Punctuated Name} (h : ListF (NameP c) .comma ns.pairs) {t : TokRef} (ht : is .comma t = false) (ht' : NameEnd t) :
    runs (oneOrMore (parseNameWithTypes self c) .comma) (yield ns ++ t :: l) (.value ns) (t :: l) :=
  oneOrMore_runs (Q := fun _ t => NameEnd t) (fun _ _ _ ha ht => nameWithTypes_runs hs ha ht) (fun _ _ _ ht => nameEnd_sym ht rfl) h ht (fun _ _ => ht')

theorem genericFor_flat {f i d e : TokRef} {ns : Punctuated Name} (h : ListF (NameP c) .comma ns.pairs) {es : Punctuated Node} {b : Blk} :
    (genericForNode c f ns i es d b e).flat = f :: (yield ns ++ i :: (yield es ++ d :: (yield b ++ [e]))) := by
  have hn : ∀ p ∈ ns.pairs, NameP c p.value := by
    generalize ns.pairs = ps at h
    induction h with
    | last ha => intro p hp; cases List.mem_singleton.1 hp; exact ha
    | cons ha _ _ ih =>
      intro p hp
      rcases List.mem_cons.1 hp with rfl | hp
      · exact ha
      · exact ih p hp
  have h3 := flatNames_names (a := false) (b := c.feat.luau) yield_name ns.pairs (fun _ p hp => (hn p hp).2.1) (fun hf p hp => noSpec hf (hn p hp).2.2)
  unfold genericForNode typeSpecs nameNodes punct vec
  rw [flat_genericFor]
  rw [show (if c.feat.luau = true then _ else _) = Clean.annotations c.feat.luau Name.typeSpec ns.pairs from rfl]
  rw [show ([] : List Node) = Clean.annotations false Name.attr ns.pairs from rfl, h3, show yield ns.pairs = yield ns from rfl]
  simp [← flat_punct', punct]

theorem forGeneric_runs (hs : RecF c self) {f i d e : TokRef} {ns : Punctuated Name} {es : Punctuated Node} {b : Blk} (hns : ListF (NameP c) .comma ns.pairs) (hi : Sym i .kIn)
    (hes : ListF (Fits c .expr) .comma es.pairs) (hd : Sym d .kDo) (h : BlkF c b) (he : Sym e .kEnd) :
    runs (expectFor self c f) (yield ns ++ i :: (yield es ++ d :: (yield b ++ e :: l))) (stmt .stmtGenericFor (genericForNode c f ns i es d b e)) l := by
  unfold expectFor
  refine runs_bind (forNames_runs hs hns (by simp [is_sym hi]) (nameEnd_sym hi rfl)) ?_
  dsimp only
  rw [current_bind]
  dsimp only
  split
  · rename_i h0; exact absurd h0 hns.ne
  · rw [if_neg (by simp [is_sym hi])]
    refine runs_bind (genericFor_runs hs hi hes hd h he) ?_
    exact runs_pure
  · refine runs_bind (genericFor_runs hs hi hes hd h he) ?_
    exact runs_pure

theorem forNumeric_runs (hs : RecF c self) {b : Blk} (h : BlkF c b) {f i q m d e : TokRef} {x y : Node} {o : Option (TokRef × Node)} {s : Option Node} (hi : Nam i) (hi' : ∀ m, s = some m → SpecS c m) (hq : Sym q .equal)
    (hx : Fits c .expr x) (hm : Sym m .comma) (hy : Fits c .expr y) (ho : ∀ p, o = some p → Sym p.1 .comma ∧ Fits c .expr p.2) (hd : Sym d .kDo) (he : Sym e .kEnd) :
    runs (expectFor self c f) (i :: (yield s ++ q :: (x.flat ++ m :: (y.flat ++ (yield o ++ d :: (yield b ++ e :: l))))))
      (stmt .stmtNumericFor (.node .numericFor [.tok f, .tok i, .tok q, x, .tok m, y, optTok (o.map (·.1)), optNode (o.map (·.2)), .tok d, b.node, .tok e, optNode s])) l := by
  unfold expectFor
  have hn := forNames_runs (self := self) (l := x.flat ++ m :: (y.flat ++ (yield o ++ d :: (yield b ++ e :: l)))) hs (ns := ⟨[.end ⟨i, none, s⟩]⟩) (.last ⟨hi, rfl, hi'⟩) (t := q) (by simp [is_sym hq]) (nameEnd_sym hq rfl)
  have hy' : yield (⟨[.end ⟨i, none, s⟩]⟩ : Punctuated Name) = i :: yield s := by simp [yield_name]
  rw [hy', List.cons_append] at hn
  refine runs_bind hn ?_
  dsimp only
  rw [current_bind]
  dsimp only
  rw [if_pos (is_iff.2 hq)]
  refine runs_bind (numericFor_runs hs h hx hm hy ho hd he) ?_
  exact runs_pure

theorem repeat_runs (hs : RecF c self) {r u t : TokRef} {b : Blk} {x : Node} (hb : BlkF c b) (hu : Sym u .kUntil) (hx : Fits c .expr x) (ht : Stop c x t) :
    runs (expectRepeat self c r) (yield b ++ u :: (x.flat ++ t :: l)) (stmt .stmtRepeat (.node .repeatBlock [.tok r, b.node, .tok u, x])) (t :: l) := by
  unfold expectRepeat
  refine runs_bind (hs.block b u _ hb (.inl ⟨.kUntil, by decide, hu⟩)) ?_
  dsimp only
  rw [require_pos (is_iff.2 hu)]
  dsimp only
  refine runs_bind (hs.expr x t _ hx ht) ?_
  exact runs_pure

theorem while_runs (hs : RecF c self) {w d e : TokRef} {b : Blk} {x : Node} (hx : Fits c .expr x) (hd : Sym d .kDo) (hb : BlkF c b) (he : Sym e .kEnd) :
    runs (expectWhile self c w) (x.flat ++ d :: (yield b ++ e :: l)) (some (.node .whileBlock [.tok w, x, .tok d, b.node, .tok e])) l := by
  unfold expectWhile
  refine runs_bind (hs.expr x d _ hx (stop_sym hd rfl x)) ?_
  dsimp only
  rw [require_pos (is_iff.2 hd)]
  dsimp only
  refine runs_bind (blockWithEnd_runs hs hb he) ?_
  exact runs_pure

/-! ## `if` -/

theorem elseIfLoop_runs (hs : RecF c self) {x : Node} {t : TokRef} (ht : is .kElseIf t = false) (hc : Closes t) : ∀ {es : List Node}, (∀ n ∈ es, ElseIfF c n) →
    ∀ n parts, runs (elseIfLoop self c x n parts) (yield es ++ t :: l) (.done (parts ++ es)) (t :: l)
  | _, _, 0, _ => runs_diverge
  | [], _, n + 1, parts => by
    unfold elseIfLoop
    rw [yield_nil, List.nil_append, takeIf_neg ht, List.append_nil]
    exact runs_pure
  | m :: es, h, n + 1, parts => by
    obtain ⟨a, e, u, b, rfl, h1, h2, h3, h4⟩ := h _ (.head _)
    have hf : (Node.node .elseIf [.tok a, e, .tok u, b.node]).flat = a :: (e.flat ++ u :: yield b) := by flat
    have hd : ∃ v k, yield es ++ t :: l = v :: k ∧ Closes v := by
      cases es with
      | nil => exact ⟨t, l, rfl, hc⟩
      | cons m' es =>
        obtain ⟨a, e, u, b, rfl, h1, h2, h3, h4⟩ := h m' (.tail _ (.head _))
        exact ⟨a, _, by rw [yield_cons, yield_node, show (Node.node .elseIf [.tok a, e, .tok u, b.node]).flat = a :: (e.flat ++ u :: yield b) by flat]; rfl, .inl ⟨.kElseIf, by decide, h1⟩⟩
    obtain ⟨v, k, hv, hvc⟩ := hd
    have ih := elseIfLoop_runs hs (x := x) ht hc (es := es) (fun n hn => h n (.tail _ hn)) n (parts ++ [.node .elseIf [.tok a, e, .tok u, b.node]])
    unfold elseIfLoop
    rw [yield_cons, yield_node, hf, List.cons_append, List.cons_append, takeIf_pos (is_iff.2 h1)]
    dsimp only
    simp only [List.append_assoc, List.cons_append, List.nil_append] at ih ⊢
    refine runs_bind (hs.expr e u _ h2 (stop_sym h3 rfl e)) ?_
    dsimp only
    rw [require_pos (is_iff.2 h3)]
    dsimp only
    rw [hv] at ih ⊢
    refine runs_bind (hs.block b v k h4 hvc) ?_
    exact ih

theorem if_runs (hs : RecF c self) {i t e : TokRef} {x : Node} {b : Blk} {es : List Node} {o : Option (TokRef × Blk)} (hx : Fits c .expr x) (ht : Sym t .kThen) (hb : BlkF c b)
    (hes : ∀ n ∈ es, ElseIfF c n) (ho : ∀ p, o = some p → Sym p.1 .kElse ∧ BlkF c p.2) (he : Sym e .kEnd) :
    runs (expectIf self c i) (x.flat ++ t :: (yield b ++ (yield es ++ (yield o ++ e :: l))))
      (some (.node .ifBlock [.tok i, x, .tok t, b.node, optVec es, optTok (o.map (·.1)), optNode (o.map fun p => p.2.node), .tok e])) l := by
  have ho' : ∃ v k, yield o ++ e :: l = v :: k ∧ Closes v ∧ is .kElseIf v = false := by
    cases o with
    | none => exact ⟨e, l, rfl, .inl ⟨.kEnd, by decide, he⟩, by simp [is_sym he]⟩
    | some p =>
      have := (ho p rfl).1
      exact ⟨p.1, yield p.2 ++ e :: l, rfl, .inl ⟨.kElse, by decide, this⟩, by simp [is_sym this]⟩
  obtain ⟨v, k, hv, hvc, hve⟩ := ho'
  have hd : ∃ v' k', yield es ++ v :: k = v' :: k' ∧ Closes v' := by
    cases es with
    | nil => exact ⟨v, k, rfl, hvc⟩
    | cons m' es =>
      obtain ⟨a, e, u, b, rfl, h1, h2, h3, h4⟩ := hes m' (.head _)
      exact ⟨a, _, by rw [yield_cons, yield_node, show (Node.node .elseIf [.tok a, e, .tok u, b.node]).flat = a :: (e.flat ++ u :: yield b) by flat]; rfl, .inl ⟨.kElseIf, by decide, h1⟩⟩
  obtain ⟨v', k', hv', hvc'⟩ := hd
  unfold expectIf
  refine runs_bind (hs.expr x t _ hx (stop_sym ht rfl x)) ?_
  dsimp only
  rw [require_pos (is_iff.2 ht)]
  dsimp only
  rw [hv, hv']
  refine runs_bind (hs.block b v' k' hb hvc') ?_
  dsimp only
  rw [fuel_bind, ← hv']
  refine runs_bind (elseIfLoop_runs hs hve hvc hes _ []) ?_
  dsimp only [List.nil_append]
  refine runs_bind (a := o) (l1 := e :: l) ?_ ?_
  · rw [← hv]
    unfold elsePart
    cases o with
    | none =>
      rw [yield_none, List.nil_append, consumeIf_neg (by simp [is_sym he])]
      exact runs_pure
    | some p =>
      obtain ⟨a, b'⟩ := p
      obtain ⟨h1, h2⟩ := ho _ rfl
      simp only [yield_some, yield_prod, yield_tok, List.cons_append, List.nil_append]
      rw [consumeIf_pos (is_iff.2 h1)]
      dsimp only
      refine runs_bind (hs.block b' e l h2 (.inl ⟨.kEnd, by decide, he⟩)) ?_
      exact runs_pure
  · rw [requireOr_pos (is_iff.2 he)]
    exact runs_pure

end FM.Parser.Forward
