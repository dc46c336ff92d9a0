import Verif.Proofs.Parser.ForwardFirst

/-! Helper lemmas: the parser accepts the tables, suffixes and functions of the grammar. -/

namespace FM.Parser.Forward
open FM.Spec FM.Parser FM.Parser.Clean

variable {c : Cfg} {α β : Type} {self : Rec} {l : List TokRef}

/-! ## Blocks with `end` -/

theorem blockRange_runs {b : Blk} (h : BlkF c b) {t : TokRef} {l' : List TokRef} {f : TokRef × TokRef → M β} {v : β} (hf : ∀ r, runs (f r) l v l') :
    runs (blockRange b t >>= f) l v l' := by
  unfold blockRange
  split
  · rename_i s hs
    obtain ⟨r, hr⟩ := nodeRange_runs (l := l) ((h.last s hs).1.tokens rfl)
    rw [runs_step hr]
    exact hf r
  · split
    · rename_i s hs
      obtain ⟨r, hr⟩ := nodeRange_runs (l := l) ((h.stmts s (List.mem_of_getLast? hs)).1.tokens rfl)
      rw [runs_step hr]
      exact hf r
    · rw [pure_bind']; exact hf _

theorem blockWithEnd_runs (hs : RecF c self) {b : Blk} (h : BlkF c b) {e t : TokRef} (he : Sym e .kEnd) {name : String} :
    runs (expectBlockWithEnd self c name t) (yield b ++ e :: l) (some (b, e)) l := by
  unfold expectBlockWithEnd
  refine runs_bind (hs.block b e l h (.inl ⟨.kEnd, by decide, he⟩)) ?_
  dsimp only
  refine blockRange_runs h fun r => ?_
  rw [requireWithRange_pos (is_iff.2 he)]
  exact runs_pure

/-! ## Tables -/

/-- The fields of a table. -/
inductive FieldsF (c : Cfg) : List (Pair Node) → Prop
  | nil : FieldsF c []
  | last {f : Node} : FieldV c f → FieldsF c [.end f]
  | cons {f : Node} {u : TokRef} {l : List (Pair Node)} : FieldV c f → Sym u .comma ∨ Sym u .semicolon → FieldsF c l → FieldsF c (.punctuated f u :: l)

theorem view_fields : ∀ {fs : List (Pair Node)}, PEl (Fits c (.cat .field)) [.comma, .semicolon] ⟨fs⟩ → Sep .trailing (⟨fs⟩ : Punctuated Node) → FieldsF c fs
  | [], _, _ => .nil
  | .end f :: [], h1, _ => .last (view_field (h1 _ (.head _)).1)
  | .end f :: y :: fs, _, h2 => absurd rfl (h2.1 (.end f) (.head _))
  | .punctuated f u :: fs, h1, h2 => by
    refine .cons (view_field (h1 _ (.head _)).1) ?_ (view_fields (fun z hz => h1 z (.tail _ hz)) ⟨fun z hz => h2.1 z ?_, nofun, nofun⟩)
    · obtain ⟨s, hs, h⟩ := (h1 _ (.head _)).2 u rfl
      rcases (by simpa using hs : s = .comma ∨ s = .semicolon) with rfl | rfl
      · exact .inl h
      · exact .inr h
    · cases fs with
      | nil => cases hz
      | cons y fs => exact .tail _ hz

/-- What follows a field. -/
def Delim (t : TokRef) : Prop := Sym t .comma ∨ Sym t .semicolon ∨ Sym t .rightBrace

theorem Delim.stop {t : TokRef} (h : Delim t) (e : Node) : Stop c e t := by rcases h with h | h | h <;> exact stop_sym h rfl e
theorem Delim.equal {t : TokRef} (h : Delim t) : is .equal t = false := by rcases h with h | h | h <;> simp [is_sym h]

theorem ctorField_runs (hs : RecF c self) {f : Node} (h : FieldV c f) {t left : TokRef} (ht : Delim t) {fs : Punctuated Node} :
    runs (ctorField self c left fs) (f.flat ++ t :: l) (.field f) (t :: l) := by
  cases h with
  | @exprKey a b q k e h1 h2 h3 h4 h5 =>
    have : (Node.node .fieldExprKey [span a b, k, .tok q, e]).flat = a :: (k.flat ++ b :: q :: e.flat) := by flat
    rw [this]
    simp only [ctorField, List.cons_append, current_bind, is_sym h1, reduceCtorEq, decide_false, decide_true, Bool.false_eq_true, if_false, if_true, take_bind, List.append_assoc]
    refine runs_bind (a := some _) (l1 := t :: l) ?_ runs_pure
    unfold expectExpressionKey
    refine runs_bind (hs.expr k b _ h3 (stop_sym h2 rfl k)) ?_
    dsimp only
    rw [requireWithRange_pos (is_iff.2 h2)]
    dsimp only
    rw [requireWithRange_pos (is_iff.2 h4)]
    dsimp only
    refine runs_bind (hs.expr e t l h5 (ht.stop e)) ?_
    exact runs_pure
  | @nameKey n q e h1 h2 h3 =>
    have : (Node.node .fieldNameKey [.tok n, .tok q, e]).flat = n :: q :: e.flat := by flat
    rw [this]
    simp only [ctorField, List.cons_append, current_bind, is_nam h1, isIdent_nam h1, Bool.false_eq_true, if_false, if_true, peekIs_bind, is_sym h2, decide_true, nameKeyField, take_bind]
    refine runs_bind (hs.expr e t l h3 (ht.stop e)) ?_
    exact runs_pure
  | @set d n h1 h2 h3 =>
    have : (Node.node .fieldSet [.tok d, .tok n]).flat = [d, n] := by flat
    rw [this]
    simp only [ctorField, List.cons_append, current_bind, is_sym h2, isIdent_sym h2, reduceCtorEq, decide_false, decide_true, Bool.false_eq_true, if_false, if_true, h1, Bool.and_self, setField, take_bind]
    rw [takeIf_pos (isIdent_nam h3)]
    exact runs_pure
  | @noKey e h1 =>
    have : (Node.node .fieldNoKey [e]).flat = e.flat := by flat
    rw [this]
    have hn : runs (noKeyField self left fs) (e.flat ++ t :: l) (.field (.node .fieldNoKey [e])) (t :: l) := by
      unfold noKeyField
      refine runs_bind (hs.expr e t l h1 (ht.stop e)) ?_
      exact runs_pure
    obtain ⟨x, k, h2, h3, h4⟩ := expr_first (l := l) h1 (ht.stop e) ht.equal
    rw [h2] at hn ⊢
    simp only [ctorField, current_bind]
    rcases h3 with h3 | h3 | h3 | ⟨i, h3⟩ | ⟨s, hs, h3⟩
    · obtain ⟨u, k', rfl, h5⟩ := h4 h3
      simpa [is_nam h3, isIdent_nam h3, h5] using hn
    · simpa [is_str h3, isIdent_str h3] using hn
    · simpa [is_num h3, isIdent_num h3] using hn
    · simpa [is_interp h3, isIdent_interp h3] using hn
    · simp only [exprStarts, List.mem_cons, List.not_mem_nil, or_false] at hs
      rcases hs with rfl | rfl | rfl | rfl | rfl | rfl | rfl | rfl | rfl | rfl | rfl | rfl | rfl <;> simpa [is_sym h3, isIdent_sym h3] using hn

theorem ctorLoop_runs (hs : RecF c self) {left right : TokRef} (hr : Sym right .rightBrace) {fs : List (Pair Node)} (h : FieldsF c fs) :
    ∀ n acc, runs (ctorLoop self c left n acc) (yield fs ++ right :: l) (.node .tableCtor [span left right, punct ⟨acc.pairs ++ fs⟩]) l := by
  induction h with
  | nil =>
    intro n acc
    cases n with
    | zero => exact runs_diverge
    | succ n =>
      unfold ctorLoop
      refine runs_bind (a := .done right) (l1 := l) ?_ ?_
      · simp only [ctorField, yield_nil, List.nil_append, current_bind, is_sym hr, decide_true, if_true, take_bind]
        exact runs_pure
      · dsimp only
        rw [List.append_nil]
        exact runs_pure
  | @last f h =>
    intro n acc
    cases n with
    | zero => exact runs_diverge
    | succ n =>
      unfold ctorLoop
      simp only [yield_cons, yield_nil, yield_end, List.append_nil, yield_node]
      refine runs_bind (ctorField_runs hs h (.inr (.inr hr))) ?_
      dsimp only
      rw [takeIf_neg (by simp [is_sym hr]), requireOr_pos (is_iff.2 hr)]
      exact runs_pure
  | @cons f u fs h hu _ ih =>
    intro n acc
    cases n with
    | zero => exact runs_diverge
    | succ n =>
      unfold ctorLoop
      simp only [yield_cons, yield_punctuated, yield_node, List.append_assoc, List.singleton_append]
      refine runs_bind (ctorField_runs hs h (hu.elim .inl fun h => .inr (.inl h))) ?_
      dsimp only
      rw [takeIf_pos (by rcases hu with hu | hu <;> simp [is_sym hu])]
      have := ih n (acc.push (.punctuated f u))
      simpa [Punctuated.push] using this

theorem table_runs (hs : RecF c self) {left right : TokRef} (hr : Sym right .rightBrace) {fs : Punctuated Node} (h : FieldsF c fs.pairs) :
    runs (forceTableConstructor self c left) (yield fs ++ right :: l) (.node .tableCtor [span left right, punct fs]) l := by
  unfold forceTableConstructor
  rw [fuel_bind]
  exact ctorLoop_runs hs hr h _ .new

/-! ## Prefixes and suffixes -/

theorem prefix_runs (hs : RecF c self) {p : Pre} (h : PreF c p) : runs (parsePrefix self c) (p.node.flat ++ l) (.value p) l := by
  cases p with
  | name t =>
    have : (Pre.name t).node.flat = [t] := by simp [Pre.node]
    rw [this]
    simp only [parsePrefix, List.singleton_append, current_bind, is_nam h, isIdent_nam h, Bool.false_eq_true, if_false, if_true, take_bind]
    exact runs_pure
  | expr e =>
    obtain ⟨a, b, e', rfl, h1, h2, h3⟩ := h
    have : (Pre.expr (.node .exprParens [span a b, e'])).node.flat = a :: (e'.flat ++ [b]) := by simp [Pre.node, span]
    rw [this]
    simp only [parsePrefix, List.cons_append, current_bind, is_sym h1, decide_true, if_true, take_bind, List.append_assoc, List.nil_append]
    refine runs_bind (hs.expr e' b _ h3 (stop_sym h2 rfl e')) ?_
    dsimp only
    rw [requireOr_pos (is_iff.2 h2)]
    exact runs_pure

theorem close_starts {t : TokRef} (h : Sym t .rightParen) : startsExpr c t = false := by
  simp [startsExpr, is_sym h, isString_sym h, isNumber_sym h, isIdent_sym h, startsUnary, interpKind_sym h]

theorem args_runs (hs : RecF c self) {n : Node} (h : ArgsV c n) : runs (parseArguments self c) (n.flat ++ l) (.value n) l := by
  cases h with
  | @parens a b es h1 h2 h3 h4 =>
    have : (Node.node .argsParens [span a b, punct es]).flat = a :: (yield es ++ [b]) := by flat
    rw [this]
    simp only [parseArguments, List.cons_append, current_bind, is_sym h1, decide_true, if_true, take_bind, List.append_assoc, List.nil_append]
    rcases listF_any h3 h4 with rfl | h5
    · refine runs_bind (expressionList_none hs (close_starts h2)) ?_
      dsimp only [closeArguments]
      rw [requireWithToken_pos (is_iff.2 h2)]
      exact runs_pure
    · refine runs_bind (expressionList_runs hs h5 (by simp [is_sym h2]) fun e _ => stop_sym h2 rfl e) ?_
      dsimp only [closeArguments]
      rw [requireWithToken_pos (is_iff.2 h2)]
      exact runs_pure
  | @string t h =>
    have : (Node.node .argsString [.tok t]).flat = [t] := by flat
    rw [this]
    simp only [parseArguments, List.singleton_append, current_bind, is_str h, isString_iff.2 h, Bool.false_eq_true, if_false, if_true, take_bind]
    exact runs_pure
  | table h =>
    obtain ⟨a, b, fs, rfl, h1, h2, h3, h4⟩ := view_table h
    have : (Node.node .argsTable [.node .tableCtor [span a b, punct fs]]).flat = a :: (yield fs ++ [b]) := by flat
    rw [this]
    simp only [parseArguments, List.cons_append, current_bind, is_sym h1, reduceCtorEq, decide_false, decide_true, Bool.false_eq_true, if_false, if_true, take_bind, List.append_assoc, List.nil_append]
    refine runs_bind (table_runs hs h2 (view_fields h3 h4)) ?_
    exact runs_pure

theorem args_first {n : Node} (h : ArgsV c n) : ∃ t k, n.flat = t :: k ∧ (Sym t .leftParen ∨ Sym t .leftBrace ∨ t.token.type.kind = .stringLiteral) := by
  cases h with
  | @parens a b es h1 h2 h3 h4 => exact ⟨a, yield es ++ [b], by flat, .inl h1⟩
  | @string t h => exact ⟨t, [], by flat, .inr (.inr h)⟩
  | table h =>
    obtain ⟨a, b, fs, rfl, h1, h2, h3, h4⟩ := view_table h
    exact ⟨a, yield fs ++ [b], by flat, .inr (.inl h1)⟩

theorem suffix_runs (hs : RecF c self) {n : Node} (h : SuffixV c n) : runs (parseSuffix self c) (n.flat ++ l) (.value n) l := by
  cases h with
  | @dot d x h1 h2 =>
    have : (Node.node .suffixIndex [.node .indexDot [.tok d, .tok x]]).flat = [d, x] := by flat
    rw [this]
    have key : ∀ m, runs (dotSuffix m) (d :: x :: l) (.value (.node .suffixIndex [.node .indexDot [.tok d, .tok x]])) l := by
      intro m
      simp only [dotSuffix, take_bind]
      rw [takeIf_pos (isIdent_nam h2)]
      exact runs_pure
    simp only [parseSuffix, List.cons_append, List.nil_append, current_bind]
    rcases h1 with h1 | ⟨h1, h3⟩
    · simpa [is_sym h1] using key _
    · simpa [is_sym h3, h1] using key _
  | @brackets a b e h1 h2 h3 =>
    have : (Node.node .suffixIndex [.node .indexBrackets [span a b, e]]).flat = a :: (e.flat ++ [b]) := by flat
    rw [this]
    simp only [parseSuffix, List.cons_append, current_bind, is_sym h1, reduceCtorEq, decide_false, decide_true, Bool.and_false, Bool.false_eq_true, if_false, if_true, bracketSuffix, take_bind, List.append_assoc, List.nil_append]
    refine runs_bind (hs.expr e b _ h3 (stop_sym h2 rfl e)) ?_
    dsimp only
    refine lastToken_runs (h3.tokens rfl) fun t => ?_
    rw [requireWithRange_pos (is_iff.2 h2)]
    exact runs_pure
  | @call n h =>
    have : (Node.node .suffixCall [.node .callAnonymous [n]]).flat = n.flat := by flat
    rw [this]
    have key : runs (callSuffix self c) (n.flat ++ l) (.value (.node .suffixCall [.node .callAnonymous [n]])) l := by
      unfold callSuffix
      exact runs_bind (args_runs hs h) runs_pure
    obtain ⟨t, k, h1, h2⟩ := args_first h
    rw [h1] at key ⊢
    simp only [parseSuffix, List.cons_append, current_bind] at key ⊢
    rcases h2 with h2 | h2 | h2
    · simpa [is_sym h2] using key
    · simpa [is_sym h2] using key
    · simpa [is_str h2, isString_iff.2 h2] using key
  | @method t x i n h1 h2 h3 h4 =>
    have : (methodNode t x i n).flat = t :: x :: ((optNode i).flat ++ n.flat) := by simp [methodNode]
    rw [this]
    simp only [parseSuffix, List.cons_append, current_bind, is_sym h1, isString_sym h1, reduceCtorEq, decide_false, decide_true, Bool.and_false, Bool.or_self, Bool.false_eq_true, if_false, if_true, methodSuffix, take_bind]
    rw [takeIf_pos (isIdent_nam h2), List.append_assoc]
    refine runs_bind (a := some i) (l1 := n.flat ++ l) ?_ ?_
    · unfold methodTypes
      cases i with
      | none =>
        split
        · obtain ⟨u, k, h5, h6⟩ := args_first h4
          rw [optNode, flat_none, List.nil_append, h5, List.cons_append, consumeIf_neg]
          · exact runs_pure
          · rcases h6 with h6 | h6 | h6
            · simp [is_sym h6]
            · simp [is_sym h6]
            · exact is_str h6
        · exact runs_pure
      | some m =>
        obtain ⟨hl, a, b, x', y, ts, rfl, g1, g2, g3, g4, g5⟩ := view_typeInst (h3 m rfl)
        rw [if_pos hl, optNode, flat_some, typeInst_flat, List.cons_append, consumeIf_pos (is_iff.2 g1)]
        have := typeInst_runs hs hl (l := n.flat ++ l) g5 g3 g4 g2 (a := a)
        simp only [List.append_assoc, List.cons_append, List.nil_append]
        exact runs_bind this runs_pure
    · exact runs_bind (args_runs hs h4) runs_pure
  | @inst n h =>
    obtain ⟨hl, a, b, x, y, ts, rfl, g1, g2, g3, g4, g5⟩ := view_typeInst h
    have : (Node.node .suffixTypeInst [.node .typeInst [span a b, span x y, punct ts]]).flat = a :: x :: (yield ts ++ [y, b]) := by
      rw [← typeInst_flat]; simp
    rw [this]
    simp only [parseSuffix, List.cons_append, current_bind, is_sym g1, isString_sym g1, hl, reduceCtorEq, decide_false, decide_true, Bool.and_false, Bool.and_self, Bool.or_self, Bool.false_eq_true, if_false, if_true, peekIs_bind, is_sym g3, instSuffix, take_bind]
    have := typeInst_runs hs hl (l := l) g5 g3 g4 g2 (a := a)
    simp only [List.append_assoc, List.cons_append, List.nil_append]
    exact runs_bind this runs_pure

theorem suffix_none {t : TokRef} (h : startsSuffix c t = false) (ha : Ahead t l) : runs (parseSuffix self c) (t :: l) .notFound (t :: l) := by
  simp only [startsSuffix, Bool.or_eq_false_iff] at h
  obtain ⟨⟨⟨⟨⟨⟨h1, h2⟩, h3⟩, h4⟩, h5⟩, h6⟩, h7⟩ := h
  simp only [parseSuffix, current_bind, *, Bool.or_self, Bool.false_eq_true, if_false]
  split
  · rename_i h8
    rw [Bool.and_eq_true] at h8
    obtain ⟨u, l', rfl, h9⟩ := ha h8.2
    rw [peekIs_bind, h9]
    exact runs_pure
  · exact runs_pure

theorem suffixes_runs (hs : RecF c self) {t : TokRef} (ht : startsSuffix c t = false) (ha : Ahead t l) : ∀ {ss : List Node}, (∀ s ∈ ss, Fits c (.cat .suffix) s) →
    ∀ n acc, runs (suffixesLoop self c n acc) (yield ss ++ t :: l) (acc ++ ss) (t :: l)
  | _, _, 0, _ => runs_diverge
  | [], _, n + 1, acc => by
    unfold suffixesLoop
    refine runs_bind (suffix_none ht ha) ?_
    dsimp only
    rw [List.append_nil]
    exact runs_pure
  | s :: ss, h, n + 1, acc => by
    unfold suffixesLoop
    rw [yield_cons, yield_node, List.append_assoc]
    refine runs_bind (suffix_runs hs (view_suffix (h s (.head _)))) ?_
    dsimp only
    have := suffixes_runs hs ht ha (fun s hs => h s (.tail _ hs)) n (acc ++ [s])
    simpa using this

theorem prefixAndSuffixes_runs (hs : RecF c self) {t : TokRef} (ht : startsSuffix c t = false) (ha : Ahead t l) {p : Pre} (hp : PreF c p) {ss : List Node}
    (h : ∀ s ∈ ss, Fits c (.cat .suffix) s) : runs (parsePrefixAndSuffixes self c) (p.node.flat ++ (yield ss ++ t :: l)) (.value (p, ss)) (t :: l) := by
  unfold parsePrefixAndSuffixes
  refine runs_bind (prefix_runs hs hp) ?_
  dsimp only
  rw [fuel_bind]
  exact runs_bind (suffixes_runs hs ht ha h _ []) runs_pure

/-! ## Names -/

/-- The tokens that may follow any name with a type. -/
def NameEnd (t : TokRef) : Prop := is .colon t = false ∧ ∀ ty, FollowT ty t

theorem nameEnd_sym {t : TokRef} {s : Symbol} (h : Sym t s) (hs : (typeEnds s && s != .colon) = true) : NameEnd t := by
  simp only [Bool.and_eq_true, bne_iff_ne] at hs
  exact ⟨by simp [is_sym h, hs.2], follow_sym h hs.1⟩

theorem nameEnd_next {t : TokRef} (h : Next t) : NameEnd t := ⟨next_is h (by decide), next_follow h⟩

theorem forceName_runs (hs : RecF c self) {x t : TokRef} {s : Option Node} (h : ∀ m, s = some m → SpecS c m) (ht : NameEnd t) :
    runs (forceNameWithTypes self c x) (yield s ++ t :: l) ⟨x, none, s⟩ (t :: l) := by
  unfold forceNameWithTypes
  cases s with
  | none =>
    rw [yield_none, List.nil_append]
    split
    · rw [consumeIf_neg ht.1]; exact runs_pure
    · exact runs_pure
  | some m =>
    obtain ⟨hl, u, ty, rfl, h1, h2, h3⟩ := h m rfl
    have hf : (Node.node .typeSpec [.tok u, ty]).flat = u :: ty.flat := by flat
    rw [if_pos hl, yield_some, yield_node, hf, List.cons_append, consumeIf_pos (is_iff.2 h1)]
    dsimp only
    refine runs_bind (a := some (.node .typeSpec [.tok u, ty])) (l1 := t :: l) ?_ runs_pure
    unfold expectTypeSpecifier
    exact runs_bind (hs.type hl ty t l h2 h3 (ht.2 ty)) runs_pure

theorem nameWithTypes_runs (hs : RecF c self) {n : Name} {t : TokRef} (h : NameP c n) (ht : NameEnd t) :
    runs (parseNameWithTypes self c) (yield n ++ t :: l) (.value n) (t :: l) := by
  obtain ⟨x, a, s⟩ := n
  obtain ⟨h1, h2, h3⟩ := h
  dsimp only at h1 h2 h3
  subst h2
  unfold parseNameWithTypes
  have hy : yield (⟨x, none, s⟩ : Name) = x :: yield s := by simp [yield_name]
  rw [hy, List.cons_append, takeIf_pos (isIdent_nam h1)]
  exact runs_bind (forceName_runs hs h3 ht) runs_pure

theorem attributesLoop_runs {t : TokRef} (ht : is .atSign t = false) : ∀ {as : List Node}, (∀ a ∈ as, LuauAttrV c a) → ∀ n acc,
    runs (attributesLoop n acc) (yield as ++ t :: l) (.value (acc ++ as)) (t :: l)
  | _, _, 0, _ => runs_diverge
  | [], _, n + 1, acc => by
    unfold attributesLoop
    rw [yield_nil, List.nil_append, consumeIf_neg ht, List.append_nil]
    exact runs_pure
  | a :: as, h, n + 1, acc => by
    obtain ⟨-, x, y, rfl, h1, h2⟩ := h _ (.head _)
    have hf : (Node.node .luauAttr [.tok x, .tok y]).flat = [x, y] := by flat
    unfold attributesLoop
    rw [yield_cons, yield_node, hf, List.append_assoc, List.cons_append, List.cons_append, consumeIf_pos (is_iff.2 h1)]
    dsimp only
    rw [parseName_pos h2]
    have := attributesLoop_runs ht (as := as) (fun a ha => h a (.tail _ ha)) n (acc ++ [.node .luauAttr [.tok x, .tok y]])
    simpa using this

theorem attributes_runs {t : TokRef} (ht : is .atSign t = false) {as : List Node} (h : ∀ a ∈ as, LuauAttrV c a) (hn : as ≠ []) :
    runs parseAttributes (yield as ++ t :: l) (.value as) (t :: l) := by
  unfold parseAttributes
  cases as with
  | nil => exact absurd rfl hn
  | cons a as =>
    have key := attributesLoop_runs (l := l) ht h
    obtain ⟨-, x, y, rfl, h1, h2⟩ := h _ (.head _)
    have hf : (Node.node .luauAttr [.tok x, .tok y]).flat = [x, y] := by flat
    rw [yield_cons, yield_node, hf, List.append_assoc, List.cons_append, List.cons_append] at key ⊢
    rw [currentIs_bind, is_iff.2 h1, if_pos rfl, fuel_bind]
    exact key _ []

/-! ## Functions -/

theorem params_runs (hl : c.luau = false) (hs : RecF c self) {r : TokRef} (hr : Sym r .rightParen) {ps : List (Pair Node)} (h : ParamsF ps) :
    ∀ n acc ts, runs (paramsLoop self c n acc ts) (yield ps ++ r :: l) (.done r ⟨acc.pairs ++ ps⟩ (ts ++ List.replicate (typeCount c ps) .none)) l := by
  induction h with
  | nil =>
    intro n acc ts
    cases n with
    | zero => exact runs_diverge
    | succ n =>
      simp only [paramsLoop, yield_nil, List.nil_append, current_bind, is_sym hr, decide_true, if_true, take_bind]
      have : typeCount c [] = 0 := by simp [typeCount]
      rw [this, List.replicate_zero, List.append_nil, List.append_nil]
      exact runs_pure
  | @ellipsis t ht =>
    intro n acc ts
    cases n with
    | zero => exact runs_diverge
    | succ n =>
      have : yield [Pair.end (Node.node .paramEllipsis [.tok t])] = [t] := by simp
      rw [this]
      simp only [paramsLoop, List.cons_append, List.nil_append, current_bind, is_sym ht, reduceCtorEq, decide_false, decide_true, Bool.false_eq_true, if_false, if_true, ellipsisParam, take_bind, hl, closeParams]
      rw [require_pos (is_iff.2 hr)]
      have : typeCount c [Pair.end (Node.node .paramEllipsis [.tok t])] = 0 := by simp [typeCount, hl, Pair.value, kindOf]
      rw [this, List.replicate_zero, List.append_nil]
      exact runs_pure
  | @last t ht =>
    intro n acc ts
    cases n with
    | zero => exact runs_diverge
    | succ n =>
      have : yield [Pair.end (Node.node .paramName [.tok t])] = [t] := by simp
      rw [this]
      simp only [paramsLoop, List.cons_append, List.nil_append, current_bind, is_nam ht, isIdent_nam ht, Bool.false_eq_true, if_false, if_true]
      refine runs_bind (nameWithTypes_runs (n := ⟨t, none, none⟩) hs ⟨ht, rfl, nofun⟩ (nameEnd_sym hr rfl)) ?_
      dsimp only
      rw [consumeIf_neg (by simp [is_sym hr])]
      dsimp only [closeParams]
      rw [require_pos (is_iff.2 hr)]
      have : (if c.feat.luau then ts ++ [optNode none] else ts) = ts ++ List.replicate (typeCount c [Pair.end (Node.node .paramName [.tok t])]) .none := by
        cases hf : c.feat.luau <;> simp [typeCount, hl, hf, Pair.value, kindOf, optNode]
      rw [this]
      exact runs_pure
  | @cons t u p ps ht hu _ ih =>
    intro n acc ts
    cases n with
    | zero => exact runs_diverge
    | succ n =>
      have : yield (Pair.punctuated (Node.node .paramName [.tok t]) u :: p :: ps) = t :: u :: yield (p :: ps) := by simp
      rw [this]
      simp only [paramsLoop, List.cons_append, current_bind, is_nam ht, isIdent_nam ht, Bool.false_eq_true, if_false, if_true]
      refine runs_bind (nameWithTypes_runs (n := ⟨t, none, none⟩) hs ⟨ht, rfl, nofun⟩ (nameEnd_sym hu rfl)) ?_
      dsimp only
      rw [consumeIf_pos (is_iff.2 hu)]
      dsimp only
      have := ih n (acc.push (.punctuated (.node .paramName [.tok t]) u)) (if c.feat.luau then ts ++ [optNode none] else ts)
      have h2 : (if c.feat.luau then ts ++ [optNode none] else ts) ++ List.replicate (typeCount c (p :: ps)) .none =
          ts ++ List.replicate (typeCount c (Pair.punctuated (Node.node .paramName [.tok t]) u :: p :: ps)) .none := by
        cases hf : c.feat.luau
        · simp [typeCount, hl, hf]
        · have h3 : typeCount c (Pair.punctuated (Node.node .paramName [.tok t]) u :: p :: ps) = typeCount c (p :: ps) + 1 := by
            simp only [typeCount, hl, hf, if_true, Bool.false_eq_true, if_false]
            rw [List.filter_cons_of_pos (by simp [Pair.value, kindOf])]
            rfl
          rw [h3, List.replicate_succ]
          simp [optNode]
      rw [h2] at this
      simpa [Punctuated.push] using this

theorem ParamsF.last_end {ps : List (Pair Node)} (h : ParamsF ps) : ∀ x, ps.getLast? = some x → x.punctuation = none := by
  induction h with
  | nil => simp
  | ellipsis | last => rintro _ ⟨⟩; rfl
  | cons _ _ _ ih => simpa using ih

theorem flatNames_nones : ∀ {ps : List (Pair Node)} {m : Nat}, flatNames (ps.map pairNode) [] (List.replicate m .none) = yield ps
  | [], _ => by simp [flatNames, joinNames]
  | p :: ps, m => by
    have ih := flatNames_nones (ps := ps) (m := m - 1)
    simp only [flatNames, List.map_nil] at ih
    simp only [flatNames, List.map_nil, List.map_cons, joinNames, List.tail_nil, yield_cons]
    rw [← List.map_tail, List.tail_replicate, ih]
    cases m <;> cases p <;> simp [pairNode, part, Node.children, List.replicate_succ]

theorem flatNames_cons {p : Pair Node} {ps : List Node} {t : Node} {ts : List Node} :
    flatNames (pairNode p :: ps) [] (t :: ts) = p.value.flat ++ (t.flat ++ (yield p.punctuation ++ flatNames ps [] ts)) := by
  simp only [flatNames, List.map_nil, List.map_cons, joinNames, List.tail_cons, List.tail_nil]
  cases p <;> simp [pairNode, part, Node.children, Pair.value, Pair.punctuation]

theorem luau_feat (h : c.luau = true) : c.feat.luau = true := by
  simp only [Cfg.luau, Cfg.has, LuaVersion.has, Bool.and_eq_true_iff] at h
  exact h.1

theorem peekIs_runs {P : TokRef → Bool} {t u : TokRef} {b : Bool} (h : P u = b) : runs (peekIs P) (t :: u :: l) b (t :: u :: l) := h ▸ .inr rfl

/-- The type of a parameter. -/
theorem view_paramSpec (hl : c.luau = true) {p s : Node} (h : SpecF c s) (h' : ∀ t, specType s = some t → single t = true ∨ namedParam p = false ∧ isOne [.tyGenericPack] t = true)
    (hp : namedParam p = true) : ∃ o, s = optNode o ∧ ∀ m, o = some m → SpecS c m := by
  rcases h with rfl | ⟨t, ty, rfl, -, h1, h2⟩
  · exact ⟨none, rfl, nofun⟩
  · refine ⟨some _, rfl, ?_⟩
    rintro _ ⟨⟩
    rcases h' ty rfl with h3 | ⟨h3, -⟩
    · exact ⟨hl, t, ty, rfl, h1, h2, h3⟩
    · rw [hp] at h3; cases h3

theorem varargType_runs (hl : c.luau = true) (hs : RecF c self) {s : Node} (h : SpecF c s) (h' : ∀ t, specType s = some t → single t = true ∨ isOne [.tyGenericPack] t = true) {r : TokRef}
    (hr : Sym r .rightParen) : ∃ o, optNode o = s ∧ runs (varargType self) (s.flat ++ r :: l) (some o) (r :: l) := by
  unfold varargType
  rcases h with rfl | ⟨t, ty, rfl, -, h1, h2⟩
  · refine ⟨none, rfl, ?_⟩
    rw [flat_none, List.nil_append, consumeIf_neg (by simp [is_sym hr])]
    exact runs_pure
  · refine ⟨some _, rfl, ?_⟩
    have hf : (Node.some (.node .typeSpec [.tok t, ty])).flat = t :: ty.flat := by flat
    rw [hf, List.cons_append, consumeIf_pos (is_iff.2 h1)]
    dsimp only
    have ht : FollowT ty r := follow_sym hr rfl ty
    rcases h' ty rfl with h3 | h3
    · have hv : variadic ty = false := by
        unfold single at h3
        rw [Bool.and_eq_true, Bool.not_eq_true'] at h3
        exact h3.1
      obtain ⟨u, k, hF⟩ := ty_first hl h2 hv
      have key := hs.type hl ty r l h2 h3 ht
      rw [hF.flat, List.cons_append] at key ⊢
      refine runs_bind (a := false) (l1 := u :: (k ++ r :: l)) ?_ (runs_bind key runs_pure)
      rw [currentIs_bind]
      split
      · rename_i hu
        rcases hF.second (isIdent_iff.1 hu) with rfl | ⟨v, l', rfl, h4, -⟩
        · exact peekIs_runs (by simp [is_sym hr])
        · exact peekIs_runs h4
      · exact runs_pure
    · have hv := view_ty hl h2
      cases hv <;> first | (cases h3; done) | skip
      rename_i x e h4 h5
      have hf : (Node.node .tyGenericPack [.tok x, .tok e]).flat = [x, e] := by flat
      rw [hf]
      refine runs_bind (a := true) (l1 := x :: e :: r :: l) ?_ ?_
      · rw [List.cons_append, currentIs_bind, isIdent_nam h4, if_pos rfl]
        exact peekIs_runs (is_iff.2 h5)
      · rw [if_pos rfl, genericPack_bind h4 h5]
        exact runs_pure

theorem typedParams_runs (hl : c.luau = true) (hs : RecF c self) {r : TokRef} (hr : Sym r .rightParen) {ps : List (Pair Node)} (h : ParamsF ps) :
    ∀ ts, ts.length = ps.length → (∀ x ∈ ts, SpecF c x) → (∀ p ∈ (ps.map pairNode).zip ts, ∀ t, specType p.2 = some t →
        single t = true ∨ namedParam p.1 = false ∧ isOne [.tyGenericPack] t = true) →
    ∀ n acc ts₀, runs (paramsLoop self c n acc ts₀) (flatNames (ps.map pairNode) [] ts ++ r :: l) (.done r ⟨acc.pairs ++ ps⟩ (ts₀ ++ ts)) l := by
  have hfeat := luau_feat hl
  induction h with
  | nil =>
    intro ts h1 _ _ n acc ts₀
    obtain rfl := List.length_eq_zero_iff.1 h1
    cases n with
    | zero => exact runs_diverge
    | succ n =>
      simp only [paramsLoop, flatNames, List.map_nil, joinNames, List.nil_append, current_bind, is_sym hr, decide_true, if_true, take_bind, List.append_nil]
      exact runs_pure
  | @ellipsis t ht =>
    intro ts h1 h2 h3 n acc ts₀
    obtain ⟨s, rfl⟩ := List.length_eq_one_iff.1 h1
    cases n with
    | zero => exact runs_diverge
    | succ n =>
      obtain ⟨o, rfl, ho⟩ := varargType_runs (l := l) hl hs (h2 s (.head _)) (fun t ht => (h3 _ (.head _) t ht).imp id (·.2)) hr
      have hy : flatNames ([Pair.end (Node.node .paramEllipsis [.tok t])].map pairNode) [] [optNode o] = t :: (optNode o).flat := by
        rw [List.map_cons, flatNames_cons]
        simp [flatNames, joinNames, Pair.value, Pair.punctuation]
      rw [hy]
      simp only [paramsLoop, List.cons_append, current_bind, is_sym ht, reduceCtorEq, decide_false, decide_true, Bool.false_eq_true, if_false, if_true, ellipsisParam, take_bind, hl]
      refine runs_bind ho ?_
      dsimp only [closeParams]
      rw [require_pos (is_iff.2 hr)]
      exact runs_pure
  | @last t ht =>
    intro ts h1 h2 h3 n acc ts₀
    obtain ⟨s, rfl⟩ := List.length_eq_one_iff.1 h1
    cases n with
    | zero => exact runs_diverge
    | succ n =>
      obtain ⟨o, rfl, ho⟩ := view_paramSpec hl (h2 s (.head _)) (h3 _ (.head _)) rfl
      have hy : flatNames ([Pair.end (Node.node .paramName [.tok t])].map pairNode) [] [optNode o] = yield (⟨t, none, o⟩ : Name) := by
        rw [List.map_cons, flatNames_cons]
        cases o <;> simp [flatNames, joinNames, Pair.value, Pair.punctuation, yield_name]
      have hy' : yield (⟨t, none, o⟩ : Name) = t :: yield o := by simp [yield_name]
      have key := nameWithTypes_runs (n := ⟨t, none, o⟩) (l := l) hs ⟨ht, rfl, ho⟩ (nameEnd_sym hr rfl)
      rw [hy, hy', List.cons_append] at *
      simp only [paramsLoop, current_bind, is_nam ht, isIdent_nam ht, Bool.false_eq_true, if_false, if_true]
      refine runs_bind key ?_
      dsimp only
      rw [consumeIf_neg (by simp [is_sym hr])]
      dsimp only [closeParams]
      rw [require_pos (is_iff.2 hr), if_pos hfeat]
      exact runs_pure
  | @cons t u p ps ht hu _ ih =>
    intro ts h1 h2 h3 n acc ts₀
    cases ts with
    | nil => cases h1
    | cons s ts =>
    cases n with
    | zero => exact runs_diverge
    | succ n =>
      obtain ⟨o, rfl, ho⟩ := view_paramSpec hl (h2 s (.head _)) (h3 _ (.head _)) rfl
      have ih := ih ts (by simpa using h1) (fun x hx => h2 x (.tail _ hx)) (fun x hx => h3 x (.tail _ hx)) n (acc.push (.punctuated (.node .paramName [.tok t]) u)) (ts₀ ++ [optNode o])
      have hy : flatNames ((Pair.punctuated (Node.node .paramName [.tok t]) u :: p :: ps).map pairNode) [] (optNode o :: ts) =
          yield (⟨t, none, o⟩ : Name) ++ u :: flatNames ((p :: ps).map pairNode) [] ts := by
        rw [List.map_cons, flatNames_cons]
        cases o <;> simp [Pair.value, Pair.punctuation, yield_name]
      have hy' : yield (⟨t, none, o⟩ : Name) = t :: yield o := by simp [yield_name]
      have key := nameWithTypes_runs (n := ⟨t, none, o⟩) (l := flatNames ((p :: ps).map pairNode) [] ts ++ r :: l) hs ⟨ht, rfl, ho⟩ (nameEnd_sym hu rfl)
      rw [hy, List.append_assoc, List.cons_append]
      rw [hy', List.cons_append] at key ⊢
      simp only [paramsLoop, current_bind, is_nam ht, isIdent_nam ht, Bool.false_eq_true, if_false, if_true]
      refine runs_bind key ?_
      dsimp only
      rw [consumeIf_pos (is_iff.2 hu)]
      dsimp only
      rw [if_pos hfeat]
      simpa [Punctuated.push] using ih

theorem eq_nones : ∀ {ts : List Node} {m : Nat}, ts.length = m → (∀ x ∈ ts, x = .none) → ts = List.replicate m .none
  | [], _, rfl, _ => rfl
  | x :: ts, _, rfl, h => by
    rw [List.length_cons, List.replicate_succ, ← eq_nones (ts := ts) rfl fun x hx => h x (.tail _ hx), h x (.head _)]

theorem bodyParams_runs (hs : RecF c self) {r : TokRef} (hr : Sym r .rightParen) {ps : List (Pair Node)} {ts : List Node} (h : ParamsF ps) (h1 : ∀ x ∈ ts, SpecF c x)
    (h2 : ts.length = typeCount c ps) (h3 : c.luau = true → ∀ p ∈ (ps.map pairNode).zip ts, ∀ t, specType p.2 = some t →
        single t = true ∨ namedParam p.1 = false ∧ isOne [.tyGenericPack] t = true) (n : Nat) :
    runs (paramsLoop self c n .new []) (flatNames (ps.map pairNode) [] ts ++ r :: l) (.done r ⟨ps⟩ ts) l := by
  cases hl : c.luau with
  | true =>
    have := typedParams_runs (l := l) hl hs hr h ts (by rw [h2, typeCount, if_pos hl]) h1 (h3 hl) n .new []
    simpa [Punctuated.new] using this
  | false =>
    obtain rfl := eq_nones h2 fun x hx => (h1 x hx).none hl
    rw [flatNames_nones]
    have := params_runs (l := l) hl hs hr h n .new []
    simpa [Punctuated.new] using this

theorem body_flat {g r : Node} {a b e : TokRef} {ps : List (Pair Node)} {ts : List Node} {blk : Blk} :
    (Node.node .funcBody [g, span a b, punct ⟨ps⟩, vec ts, r, blk.node, .tok e]).flat =
      g.flat ++ a :: (flatNames (ps.map pairNode) [] ts ++ b :: (r.flat ++ (yield blk ++ [e]))) := by
  rw [span, punct, vec, flat_funcBody]
  simp

theorem body_runs (hs : RecF c self) {n : Node} (h0 : Fits c (.cat .funcBody) n) : runs (parseFunctionBody self c) (n.flat ++ l) (.value n) l := by
  obtain ⟨g, a, b, ps, ts, r, blk, e, rfl, h⟩ := view_body h0
  have key : ∀ o, optNode o = g → runs (bodyParens self c o) (a :: (flatNames (ps.map pairNode) [] ts ++ b :: (r.flat ++ (yield blk ++ e :: l))))
      (.value (.node .funcBody [g, span a b, punct ⟨ps⟩, vec ts, r, blk.node, .tok e])) l := by
    rintro o rfl
    dsimp only [bodyParens]
    rw [consumeIf_pos (is_iff.2 h.open_)]
    dsimp only
    rw [fuel_bind]
    refine runs_bind (bodyParams_runs hs h.close h.params h.types h.count h.packs _) ?_
    dsimp only [bodyRest]
    rw [dropTrailing_eq h.params.last_end, pure_bind']
    obtain ⟨u, k, h1, h2⟩ := block_first (l := l) h.block (t := e) (.inl ⟨.kEnd, by decide, h.end_⟩)
    have hret : ∃ q, optNode q = r ∧ runs (bodyReturnType self c) (r.flat ++ u :: k) (some q) (u :: k) := by
      unfold bodyReturnType
      rcases h.result with rfl | ⟨t, ty, rfl, hl, h3, h4⟩
      · refine ⟨none, rfl, ?_⟩
        rw [flat_none, List.nil_append]
        split
        · rw [consumeIf_neg (next_is h2 (by decide))]
          dsimp only
          rw [consumeIf_neg (next_is h2 (by decide))]
          exact runs_pure
        · exact runs_pure
      · refine ⟨some _, rfl, ?_⟩
        have hf : (Node.some (.node .typeSpec [.tok t, ty])).flat = t :: ty.flat := by flat
        rw [if_pos hl, hf, List.cons_append, consumeIf_pos (is_iff.2 h3)]
        dsimp only
        exact runs_bind (returnType_runs hs hl h4 (h.led hl ty rfl) (next_follow h2 ty).pack) runs_pure
    obtain ⟨q, rfl, hq⟩ := hret
    have hb := blockWithEnd_runs hs h.block h.end_ (l := l) (t := b) (name := "function body")
    rw [h1] at hb ⊢
    refine runs_bind hq ?_
    dsimp only
    refine runs_bind hb ?_
    exact runs_pure
  rw [body_flat]
  simp only [List.append_assoc, List.cons_append, List.nil_append]
  unfold parseFunctionBody
  rcases fits_opt h.generics with rfl | ⟨m, rfl, hm⟩
  · rw [flat_none, List.nil_append]
    exact runs_bind (genericList_none (by simp [is_sym h.open_])) (key none rfl)
  · rw [flat_some]
    obtain ⟨hl, -⟩ := view_genericDecl hm
    exact runs_bind (genericList_runs hs hl hm fun _ => h.noDefault hl) (key (some m) rfl)

/-- The first token of a function body. -/
theorem body_first {n : Node} (h0 : Fits c (.cat .funcBody) n) : ∃ t k, n.flat = t :: k ∧ (Sym t .leftParen ∨ Sym t .lessThan) := by
  obtain ⟨g, a, b, ps, ts, r, blk, e, rfl, h⟩ := view_body h0
  rw [body_flat]
  rcases fits_opt h.generics with rfl | ⟨m, rfl, hm⟩
  · rw [flat_none, List.nil_append]
    exact ⟨a, _, rfl, .inl h.open_⟩
  · obtain ⟨hl, x, y, ps', rfl, h1, h2, h3⟩ := view_genericDecl hm
    have hf : (Node.some (.node .genericDecl [span x y, punct ⟨ps'⟩])).flat = x :: (yield ps' ++ [y]) := by flat
    rw [hf]
    exact ⟨x, _, rfl, .inr h1⟩

end FM.Parser.Forward
