import Verif.Proofs.Parser.ForwardTypes3

/-! Helper lemmas: the first tokens of expressions, statements and blocks. -/

namespace FM.Parser.Forward
open FM.Spec FM.Parser FM.Parser.Clean

variable {c : Cfg} {α β : Type} {l : List TokRef}

/-! ## Expressions -/

/-- The symbols that start an expression. -/
def exprStarts : List Symbol := [.kFunction, .kTrue, .kFalse, .kNil, .ellipsis, .leftParen, .minus, .kNot, .hash, .tilde, .leftBrace, .atSign, .kIf]

/-- The first tokens of expressions. -/
def FirstE (t : TokRef) : Prop := Nam t ∨ t.token.type.kind = .stringLiteral ∨ t.token.type.kind = .number ∨ (∃ k, interpKind t = some k) ∨
  ∃ s ∈ exprStarts, Sym t s

theorem FirstE.is {t : TokRef} (h : FirstE t) {s : Symbol} (hs : s ∉ exprStarts) : is s t = false := by
  rcases h with h | h | h | ⟨k, h⟩ | ⟨s', h', h⟩
  · exact is_nam h
  · exact is_str h
  · exact is_num h
  · exact is_interp h
  · rw [is_sym h, decide_eq_false]
    rintro rfl
    exact hs h'

theorem nam_sym {t : TokRef} {s : Symbol} (h : Sym t s) : ¬ Nam t := by rintro ⟨x, h'⟩; rw [h] at h'; cases h'

theorem isIdent_interp {t : TokRef} {k : InterpKind} (h : interpKind t = some k) : t.isIdent = false := by
  simp [TokRef.isIdent, kind_interp h]

theorem typeInst_flat {a b x y : TokRef} {ts : Punctuated Node} : (Node.node .typeInst [span a b, span x y, punct ts]).flat = a :: x :: (yield ts ++ [y, b]) := by
  flat

theorem suffix_first {n : Node} (h : SuffixV c n) : ∃ t k, n.flat = t :: k ∧ is .equal t = false ∧ t.isIdent = false := by
  have key : ∀ {t : TokRef} {s : Symbol}, Sym t s → s ≠ .equal → is .equal t = false ∧ t.isIdent = false :=
    fun h hs => ⟨by simp [is_sym h, hs], isIdent_sym h⟩
  cases h with
  | @dot d x h1 h2 =>
    refine ⟨d, [x], by flat, ?_⟩
    rcases h1 with h1 | ⟨h1, h3⟩
    · exact key h1 (by decide)
    · exact key h3 (by decide)
  | @brackets a b e h1 h2 h3 => exact ⟨a, e.flat ++ [b], by flat, key h1 (by decide)⟩
  | call h =>
    cases h with
    | @parens a b es h1 h2 h3 h4 => exact ⟨a, yield es ++ [b], by flat, key h1 (by decide)⟩
    | @string t h => exact ⟨t, [], by flat, is_str h, isIdent_str h⟩
    | table h =>
      obtain ⟨a, b, fs, rfl, h1, -⟩ := view_table h
      exact ⟨a, yield fs ++ [b], by flat, key h1 (by decide)⟩
  | @method t x i n h1 h2 h3 => exact ⟨t, x :: ((optNode i).flat ++ n.flat), by simp [methodNode], key h1 (by decide)⟩
  | inst h =>
    obtain ⟨-, a, b, x, y, ts, rfl, h1, -⟩ := view_typeInst h
    refine ⟨a, x :: (yield ts ++ [y, b]), ?_, key h1 (by decide)⟩
    rw [← typeInst_flat]; simp

theorem prefix_first {p : Pre} (h : PreF c p) : ∃ t k, p.node.flat = t :: k ∧ (Nam t ∧ k = [] ∨ Sym t .leftParen) := by
  cases p with
  | name t => exact ⟨t, [], by simp [Pre.node], .inl ⟨h, rfl⟩⟩
  | expr e =>
    obtain ⟨a, b, e', rfl, h1, -⟩ := h
    exact ⟨a, e'.flat ++ [b], by simp [Pre.node, span], .inr h1⟩

theorem luauAttr_first {as : List Node} (h : ∀ a ∈ as, LuauAttrV c a) {t : TokRef} : ∃ u k, yield as ++ t :: l = u :: k ∧ (Sym u .atSign ∨ u = t) := by
  cases as with
  | nil => exact ⟨t, l, rfl, .inr rfl⟩
  | cons a as =>
    obtain ⟨-, x, y, rfl, h1, h2⟩ := h _ (.head _)
    exact ⟨x, y :: (yield as ++ t :: l), by simp, .inl h1⟩

/-- The first token of an expression that is neither a binary one nor an assertion, and the second if the first is a name. -/
theorem base_first {e : Node} (h : Fits c .expr e) (hk : isOne [.exprBinary, .exprAssertion] e = false) :
    ∃ t k, e.flat = t :: k ∧ FirstE t ∧ (Nam t → ∀ u, k.head? = some u → is .equal u = false) := by
  have sym : ∀ {t : TokRef} {s : Symbol}, Sym t s → s ∈ exprStarts → FirstE t := fun h h' => .inr (.inr (.inr (.inr ⟨_, h', h⟩)))
  have pre : ∀ {p : Pre} {ss : List Node}, PreF c p → (∀ s ∈ ss, Fits c (.cat .suffix) s) →
      ∃ t k, p.node.flat ++ yield ss = t :: k ∧ FirstE t ∧ (Nam t → ∀ u, k.head? = some u → is .equal u = false) := by
    intro p ss h1 h2
    obtain ⟨t, k, h3, h4⟩ := prefix_first h1
    refine ⟨t, k ++ yield ss, by rw [h3]; rfl, ?_⟩
    rcases h4 with ⟨h4, rfl⟩ | h4
    · refine ⟨.inl h4, fun _ u hu => ?_⟩
      cases ss with
      | nil => cases hu
      | cons s ss =>
        obtain ⟨v, k, h5, h6, -⟩ := suffix_first (view_suffix (h2 s (.head _)))
        rw [List.nil_append, yield_cons, yield_node, h5] at hu
        cases hu
        exact h6
    · exact ⟨sym h4 (by decide), fun hn => absurd hn (nam_sym h4)⟩
  have hv := view_expr h
  cases hv with
  | binary => cases hk
  | assertion => cases hk
  | @parens a b e h1 => exact ⟨a, e.flat ++ [b], by flat, sym h1 (by decide), fun hn => absurd hn (nam_sym h1)⟩
  | @unary o t e h1 => exact ⟨t, e.flat, by flat, sym h1 (by cases o <;> decide), fun hn => absurd hn (nam_sym h1)⟩
  | @function as t b h0 h1 =>
    obtain ⟨u, k, h3, h4⟩ := luauAttr_first (l := b.flat) h0 (t := t)
    have hf : (Node.node .exprFunction [.node .anonFunc [vec as, .tok t, b]]).flat = yield as ++ t :: b.flat := by flat
    refine ⟨u, k, by rw [hf, h3], ?_⟩
    rcases h4 with h4 | rfl
    · exact ⟨sym h4 (by decide), fun hn => absurd hn (nam_sym h4)⟩
    · exact ⟨sym h1 (by decide), fun hn => absurd hn (nam_sym h1)⟩
  | call h1 =>
    obtain ⟨p, ss, rfl, h2, h3, h4⟩ := view_call h1
    obtain ⟨t, k, h5, h6⟩ := pre h2 h3
    exact ⟨t, k, by rw [← h5]; simp [callNode], h6⟩
  | table h1 =>
    obtain ⟨a, b, fs, rfl, h2, -⟩ := view_table h1
    exact ⟨a, yield fs ++ [b], by flat, sym h2 (by decide), fun hn => absurd hn (nam_sym h2)⟩
  | @number t h1 => exact ⟨t, [], by flat, .inr (.inr (.inl h1)), nofun⟩
  | @string t h1 => exact ⟨t, [], by flat, .inr (.inl h1), nofun⟩
  | @symbol t s h1 h2 =>
    refine ⟨t, [], by flat, sym h2 ?_, nofun⟩
    rcases (by simpa using h1 : s = .kTrue ∨ s = .kFalse ∨ s = .kNil ∨ s = .ellipsis) with rfl | rfl | rfl | rfl <;> decide
  | var h1 =>
    obtain ⟨p, ss, rfl, h2, h3, h4⟩ := view_var h1
    obtain ⟨t, k, h5, h6⟩ := pre h2 h3
    refine ⟨t, k, ?_, h6⟩
    rw [← h5]
    simp [varNode_flat, yield_pre]
  | @if_ a th el e₁ e₂ e₃ es hl h1 =>
    exact ⟨a, e₁.flat ++ th :: (e₂.flat ++ (yield es ++ el :: e₃.flat)), by flat, sym h1 (by decide), fun hn => absurd hn (nam_sym h1)⟩
  | @interp ss t hl h1 h2 =>
    have hf : (Node.node .exprInterp [.node .interpString [vec ss, .tok t]]).flat = yield ss ++ [t] := by flat
    rw [hf]
    have hn : ∀ {u : TokRef} {k : InterpKind}, interpKind u = some k → ¬ Nam u := by
      rintro u k h ⟨x, hx⟩; simp [interpKind, hx] at h
    simp only [Connected, vec, Node.children_node] at h2
    cases ss with
    | nil => exact ⟨t, [], rfl, .inr (.inr (.inr (.inl ⟨_, h2⟩))), nofun⟩
    | cons s ss =>
      obtain ⟨x, e, rfl, h3, h4, h5⟩ := view_interpSegment hl (h1 _ (.head _))
      exact ⟨x, e.flat ++ (yield ss ++ [t]), by simp, .inr (.inr (.inr (.inl ⟨_, h2.1⟩))), fun h => absurd h (hn h2.1)⟩

theorem head_first {e : Node} (h : Fits c .expr e) (hk : kindOf e ≠ some .exprBinary) :
    ∃ t k, e.flat = t :: k ∧ FirstE t ∧ (Nam t → ∀ u, k.head? = some u → is .equal u = false) := by
  cases ha : isOne [.exprBinary, .exprAssertion] e with
  | false => exact base_first h ha
  | true =>
    have hv := view_expr h
    cases hv <;> first | (cases ha; done) | exact absurd rfl hk | skip
    rename_i e ty t hl h1 h2 h3 h4 h5 h6
    obtain ⟨u, k, h7, h8, h9⟩ := base_first h1 h5
    have hf : (Node.node .exprAssertion [e, .node .typeAssertion [.tok t, ty]]).flat = e.flat ++ t :: ty.flat := by flat
    refine ⟨u, k ++ t :: ty.flat, by rw [hf, h7]; rfl, h8, fun hn v hv => ?_⟩
    cases k with
    | nil => cases hv; simp [is_sym h2]
    | cons w k => exact h9 hn v hv

theorem FirstE.less {t : TokRef} (h : FirstE t) : FM.Parser.is .lessThan t = false := h.is (by decide)

/-- The first token of an expression, and the second if the first is a name. -/
theorem expr_first {e : Node} (h : Fits c .expr e) {v : TokRef} (hv : Stop c e v) (hq : is .equal v = false) :
    ∃ t k, e.flat ++ v :: l = t :: k ∧ FirstE t ∧ (Nam t → ∃ u k', k = u :: k' ∧ is .equal u = false) := by
  obtain ⟨x, T, rfl, h1, h2, h3, h4, h5⟩ := links_of e v h hv.ends
  obtain ⟨t, k, h6, h7, h8⟩ := head_first h1 h2
  rw [flat_spine, h6]
  refine ⟨t, k ++ yield T ++ v :: l, by simp, h7, fun hn => ?_⟩
  cases k with
  | cons u k => exact ⟨u, _, rfl, h8 hn u rfl⟩
  | nil =>
    cases T with
    | nil => exact ⟨v, l, rfl, hq⟩
    | cons y T =>
      refine ⟨y.tok, _, rfl, ?_⟩
      rw [is_sym h3.1]
      cases y.op <;> rfl

theorem expr_head {e : Node} {v : TokRef} (h : Fits c .expr e) (hv : Ends c e v) : ∃ t k, e.flat = t :: k ∧ FirstE t := by
  obtain ⟨x, T, rfl, h1, h2, h3, h4, h5⟩ := links_of e v h hv
  obtain ⟨t, k, h6, h7, h8⟩ := head_first h1 h2
  exact ⟨t, k ++ yield T, by rw [flat_spine, h6]; rfl, h7⟩

/-- The first token of the operators, or the one after them, is not followed by another `<`. -/
theorem hdTok_cons {T : List Op} {t : TokRef} (h : Links c T t) (ht : Ahead t l) : ∃ k, yield T ++ t :: l = hdTok T t :: k ∧ Ahead (hdTok T t) k := by
  cases T with
  | nil => exact ⟨l, rfl, ht⟩
  | cons x T =>
    obtain ⟨u, k, h1, h2⟩ := expr_head h.2.2.1 h.2.2.2.2.1
    exact ⟨x.rhs.flat ++ (yield T ++ t :: l), by simp [hdTok], fun _ => ⟨u, k ++ (yield T ++ t :: l), by rw [h1]; rfl, h2.less⟩⟩

/-! ## Statements -/

/-- The symbols that start a statement or end a block. -/
def nexts : List Symbol := [.kLocal, .kFor, .kDo, .kIf, .kFunction, .kRepeat, .kWhile, .leftParen, .kGoto, .twoColons, .kReturn, .kBreak,
  .kEnd, .kElse, .kElseIf, .kUntil, .atSign]

/-- The token starts a statement or ends a block. -/
def Next (t : TokRef) : Prop := Nam t ∨ t.isEof = true ∨ ∃ s ∈ nexts, Sym t s

theorem next_is {t : TokRef} {q : Symbol} (h : Next t) (hq : q ∉ nexts) : is q t = false := by
  rcases h with h | h | ⟨s, hs, h⟩
  · exact is_nam h
  · exact is_eof h
  · rw [is_sym h]
    simp only [decide_eq_false_iff_not]
    rintro rfl
    exact hq hs

theorem next_follow {t : TokRef} (h : Next t) (ty : Node) : FollowT ty t :=
  ⟨by simp [extends_, next_is h (q := .questionMark) (by decide), next_is h (q := .pipe) (by decide), next_is h (q := .ampersand) (by decide)],
    next_is h (by decide), next_is h (by decide), next_is h (by decide), fun _ => next_is h (by decide)⟩

theorem after_closes {t : TokRef} (h : Closes t) : Next t := by
  rcases h with ⟨s, hs, h⟩ | h
  · refine .inr (.inr ⟨s, ?_, h⟩)
    clear h
    revert s
    decide
  · exact .inr (.inl h)

theorem var_first {v : Node} (h : Fits c (.cat .var) v) : ∃ t k, v.flat = t :: k ∧ (is .leftParen t || t.isIdent) = true ∧
    (Nam t ∨ Sym t .leftParen) := by
  obtain ⟨p, ss, rfl, h2, h3, h4⟩ := view_var h
  have hf : (varNode p ss).flat = p.node.flat ++ yield ss := by simp [varNode_flat, yield_pre]
  obtain ⟨x, k, h5, h6⟩ := prefix_first h2
  rw [hf, h5]
  rcases h6 with ⟨h6, rfl⟩ | h6
  · exact ⟨x, _, rfl, by simp [isIdent_nam h6], .inl h6⟩
  · exact ⟨x, _, rfl, by simp [is_sym h6], .inr h6⟩

theorem call_first {v : Node} (h : Fits c (.cat .functionCall) v) : ∃ t k, v.flat = t :: k ∧ (is .leftParen t || t.isIdent) = true ∧
    (Nam t ∨ Sym t .leftParen) := by
  obtain ⟨p, ss, rfl, h2, h3, h4⟩ := view_call h
  have hf : (callNode p ss).flat = p.node.flat ++ yield ss := by simp [callNode_flat, yield_pre]
  obtain ⟨x, k, h5, h6⟩ := prefix_first h2
  rw [hf, h5]
  rcases h6 with ⟨h6, rfl⟩ | h6
  · exact ⟨x, _, rfl, by simp [isIdent_nam h6], .inl h6⟩
  · exact ⟨x, _, rfl, by simp [is_sym h6], .inr h6⟩

theorem stmt_first {n : Node} (h : StmtF c n) : ∃ t k, n.flat = t :: k ∧ Next t := by
  have key : ∀ {t : TokRef} (_ : Nam t ∨ Sym t .leftParen), Next t := by
    rintro t (h | h)
    · exact .inl h
    · exact .inr (.inr ⟨.leftParen, by decide, h⟩)
  have sym : ∀ {t : TokRef} {s : Symbol}, Sym t s → s ∈ nexts → Next t := fun h hs => .inr (.inr ⟨_, hs, h⟩)
  have key' : ∀ {t : TokRef} {s : Symbol}, Sym t s → s ∈ nexts → (∃ k, n.flat = t :: k) → ∃ t k, n.flat = t :: k ∧ Next t :=
    fun h hs ⟨k, hk⟩ => ⟨_, k, hk, sym h hs⟩
  have attrs' : ∀ {as : List Node} {t : TokRef} {l : List TokRef} {s : Symbol}, (∀ a ∈ as, LuauAttrV c a) → Sym t s → s ∈ nexts →
      ∃ u k, yield as ++ t :: l = u :: k ∧ Next u := by
    intro as t l s h h1 h2
    obtain ⟨u, k, h3, h4⟩ := luauAttr_first (l := l) h (t := t)
    exact ⟨u, k, h3, h4.elim (fun h => sym h (by decide)) fun h => h ▸ sym h1 h2⟩
  cases h with
  | @assignment vs es u h1 h2 h3 =>
    obtain ⟨ps⟩ := vs
    cases h1 with
    | @last a ha =>
      obtain ⟨t, k, g1, -, g2⟩ := var_first ha
      exact ⟨t, k ++ u :: yield es, by simp [g1], key g2⟩
    | @cons a w x ps ha hw hx =>
      obtain ⟨t, k, g1, -, g2⟩ := var_first ha
      exact ⟨t, k ++ w :: (yield (x :: ps) ++ u :: yield es), by simp [g1], key g2⟩
  | @doBlock a e b h1 h2 h3 => exact ⟨a, yield b ++ [e], by flat, sym h1 (by decide)⟩
  | @call f h1 =>
    obtain ⟨t, k, g1, -, g2⟩ := call_first h1
    exact ⟨t, k, by simp [g1], key g2⟩
  | @function as t n b h0 h1 h2 h3 =>
    obtain ⟨u, k, h4, h5⟩ := attrs' (l := n.flat ++ b.flat) h0 h1 (by decide)
    refine ⟨u, k, ?_, h5⟩
    rw [← h4]; flat
  | @genericFor f i d e ns es b h1 h2 h3 h4 h5 h6 h7 =>
    refine key' h1 (by decide) ?_
    rw [flat_stmtGenericFor_plain, List.flatMap_cons]
    unfold genericForNode typeSpecs nameNodes punct vec
    rw [flat_genericFor]
    exact ⟨_, rfl⟩
  | @if_ i t e x b es o h1 =>
    exact ⟨i, x.flat ++ t :: (yield b ++ (yield es ++ (yield (o.map (·.1)) ++ (yield (o.map fun p => p.2.node) ++ [e])))), by flat, sym h1 (by decide)⟩
  | @local_ a ns h1 h2 =>
    refine key' h1 (by decide) ?_
    rw [flat_stmtLocalAssignment_plain, List.flatMap_cons]
    unfold localNode typeSpecs nameNodes attrs punct vec
    rw [flat_localAssignment]
    exact ⟨_, rfl⟩
  | @localValues a u ns es h1 h2 =>
    refine key' h1 (by decide) ?_
    rw [flat_stmtLocalAssignment_plain, List.flatMap_cons]
    unfold localNode typeSpecs nameNodes attrs punct vec
    rw [flat_localAssignment]
    exact ⟨_, rfl⟩
  | @localFunction as a t n b h0 h1 =>
    obtain ⟨u, k, h4, h5⟩ := attrs' (l := t :: n :: b.flat) h0 h1 (by decide)
    refine ⟨u, k, ?_, h5⟩
    rw [← h4]; flat
  | @numericFor f i q m d e x y o b s h1 =>
    refine key' h1 (by decide) ?_
    rw [flat_stmtNumericFor_plain, List.flatMap_cons, flat_numericFor]
    exact ⟨_, rfl⟩
  | @repeat_ r u b x h1 => exact ⟨r, yield b ++ u :: x.flat, by flat, sym h1 (by decide)⟩
  | @while_ w d e b x h1 => exact ⟨w, x.flat ++ d :: (yield b ++ [e]), by flat, sym h1 (by decide)⟩
  | @compound v x o u h1 h2 h3 h4 =>
    obtain ⟨t, k, g1, -, g2⟩ := var_first h1
    exact ⟨t, k ++ u :: x.flat, by simp [g1], key g2⟩
  | @goto t n h1 h2 => exact ⟨t, [n], by flat, sym h2 (by decide)⟩
  | @label a n b h1 h2 => exact ⟨a, [n, b], by flat, sym h2 (by decide)⟩
  | @type n hl h1 =>
    obtain ⟨t, x, e, g, ty, rfl, h2, h3, h4⟩ := view_typeDecl hl h1
    exact ⟨t, x :: ((optNode g).flat ++ e :: ty.flat), by flat, .inl ⟨_, h2⟩⟩
  | @exportedType t n hl h1 => exact ⟨t, n.flat, by flat, .inl ⟨_, h1⟩⟩
  | @typeFunction n hl h1 =>
    obtain ⟨t, f, x, b, rfl, h2, h3, h4⟩ := view_typeFunction h1
    exact ⟨t, f :: x :: b.flat, by flat, .inl ⟨_, h2⟩⟩
  | @exportedTypeFunction t n hl h1 => exact ⟨t, n.flat, by flat, .inl ⟨_, h1⟩⟩

theorem last_first {n : Node} (h : Fits c (.cat .lastStmt) n) : ∃ t k, n.flat = t :: k ∧
    (Sym t .kReturn ∨ Sym t .kBreak ∨ c.luau = true ∧ Wrd t c!"continue" ∧ k = [] ∧ n = .node .lastContinue [.tok t]) := by
  have hv := view_last h
  cases hv with
  | @continue_ t hl h' => exact ⟨t, [], by flat, .inr (.inr ⟨hl, h', rfl, rfl⟩)⟩
  | @break_ u h3 => exact ⟨u, [], by flat, .inr (.inl h3)⟩
  | @return_ u es h3 h4 => exact ⟨u, yield es, by unfold returnNode; flat, .inl h3⟩

theorem last_next {n : Node} (h : Fits c (.cat .lastStmt) n) : ∃ t k, n.flat = t :: k ∧ Next t := by
  obtain ⟨t, k, h1, h2⟩ := last_first h
  refine ⟨t, k, h1, ?_⟩
  rcases h2 with h2 | h2 | ⟨-, h2, -⟩
  · exact .inr (.inr ⟨_, by decide, h2⟩)
  · exact .inr (.inr ⟨_, by decide, h2⟩)
  · exact .inl ⟨_, h2⟩

theorem block_first {b : Blk} (h : BlkF c b) {t : TokRef} (ht : Closes t) : ∃ u k, yield b ++ t :: l = u :: k ∧ Next u := by
  obtain ⟨ss, o⟩ := b
  have hy : yield (⟨ss, o⟩ : Blk) = yield ss ++ yield o := rfl
  rw [hy]
  cases ss with
  | nil =>
    cases o with
    | none => exact ⟨t, l, rfl, after_closes ht⟩
    | some s =>
      obtain ⟨m, q⟩ := s
      obtain ⟨u, k, h1, h2⟩ := last_next (h.last _ rfl).1
      dsimp only at h1
      exact ⟨u, k ++ (yield q ++ t :: l), by simp [h1], h2⟩
  | cons s ss =>
    obtain ⟨m, q⟩ := s
    obtain ⟨u, k, h1, h2⟩ := stmt_first (view_stmt (h.stmts _ (.head _)).1)
    dsimp only at h1
    exact ⟨u, k ++ (yield q ++ (yield ss ++ (yield o ++ t :: l))), by simp [h1], h2⟩

end FM.Parser.Forward
