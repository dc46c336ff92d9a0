import Verif.Proofs.Parser.ForwardExpr2

/-! Helper lemmas: the parser accepts the expressions of the grammar: operands and operators. -/

namespace FM.Parser.Forward
open FM.Spec FM.Parser FM.Parser.Clean

variable {c : Cfg} {α β : Type} {self : Rec} {l : List TokRef}

/-! ## Operands -/

theorem prefixExpression_runs (hs : RecF c self) {t : TokRef} (ht : startsSuffix c t = false) (ha : Ahead t l) {p : Pre} (hp : PreF c p) {ss : List Node}
    (h : ∀ s ∈ ss, Fits c (.cat .suffix) s) : runs (primaryBase self c) (p.node.flat ++ (yield ss ++ t :: l)) (.value (prefixExprNode p ss)) (t :: l) := by
  have key : runs (prefixExpression self c) (p.node.flat ++ (yield ss ++ t :: l)) (.value (prefixExprNode p ss)) (t :: l) := by
    unfold prefixExpression
    refine runs_bind (prefixAndSuffixes_runs hs ht ha hp h) ?_
    exact runs_pure
  obtain ⟨x, k, h1, h2⟩ := prefix_first hp
  rw [h1] at key ⊢
  simp only [primaryBase, List.cons_append, current_bind]
  rcases h2 with ⟨h2, rfl⟩ | h2
  · simpa [is_nam h2, isIdent_nam h2, isString_nam h2, isNumber_nam h2] using key
  · simpa [is_sym h2, isIdent_sym h2, isString_sym h2, isNumber_sym h2] using key

theorem unary_level {T : List Op} {e : Node} (h : ∀ p ∈ leftEdge e, unaryRow < row p) (hT : ∀ x ∈ T, x.op.symbol.text ∈ leftEdge e) : ∀ x ∈ T, UnOp.precedence ≤ x.op.level := by
  intro x hx
  have h1 := h _ (hT x hx)
  have h2 := row_symbol x.op
  have h3 : unaryRow = 10 := by decide
  simp only [UnOp.precedence]
  omega

/-- The token after an operand. -/
structure Base (c : Cfg) (e : Node) (t : TokRef) : Prop where
  op : ∀ n, BinOp.precedenceOfToken c.feat t = some n → ∀ x ∈ rightEdge e, keepsLeft t.token.display x
  suffix : callable e = true → startsSuffix c t = false
  assertion : c.luau = true → innerAsserts e = true → is .twoColons t = false
  type : c.luau = true → ∀ ty, lastType e = some ty → FollowT ty t

/-! ### `if` expressions -/

theorem ifOperand_runs (hs : RecF c self) {e : Node} {t : TokRef} (h : Fits c .expr e) (ht : Stop c e t) : runs (ifOperand self) (e.flat ++ t :: l) (some e) (t :: l) := by
  unfold ifOperand
  exact runs_bind (hs.expr e t l h ht) runs_pure

theorem ifPart_runs (hs : RecF c self) {e e' : Node} {th t : TokRef} (h : Fits c .expr e) (h1 : Sym th .kThen) (h' : Fits c .expr e') (ht : Stop c e' t) :
    runs (ifPart self) (e.flat ++ th :: (e'.flat ++ t :: l)) (some (e, th, e')) (t :: l) := by
  unfold ifPart
  refine runs_bind (ifOperand_runs hs h (stop_sym h1 rfl e)) ?_
  dsimp only
  rw [require_pos (is_iff.2 h1)]
  exact runs_bind (ifOperand_runs hs h' ht) runs_pure

theorem elseIfExprs_runs (hs : RecF c self) {el : TokRef} (he : Sym el .kElse) : ∀ (n : Nat) (es acc : List Node), (∀ x ∈ es, Fits c (.cat .elseIfExpr) x) →
    runs (elseIfExprs self n acc) (yield es ++ el :: l) (some (acc ++ es)) (el :: l)
  | 0, _, _, _ => runs_diverge
  | n + 1, [], acc, _ => by
    unfold elseIfExprs
    rw [yield_nil, List.nil_append, consumeIf_neg (by simp [is_sym he]), List.append_nil]
    exact runs_pure
  | n + 1, x :: es, acc, h => by
    unfold elseIfExprs
    obtain ⟨a, e, th, e', rfl, h1, h2, h3, h4⟩ := view_elseIfExpr (h x (.head _))
    have hf : (Node.node .elseIfExpr [.tok a, e, .tok th, e']).flat = a :: (e.flat ++ th :: e'.flat) := by flat
    rw [yield_cons, yield_node, hf]
    simp only [List.cons_append, List.append_assoc]
    rw [consumeIf_pos (is_iff.2 h1)]
    dsimp only
    have hd : ∃ u k, yield es ++ el :: l = u :: k ∧ (Sym u .kElse ∨ Sym u .kElseIf) := by
      cases es with
      | nil => exact ⟨el, l, rfl, .inl he⟩
      | cons y es =>
        obtain ⟨a, e, th, e', rfl, h1, h2, h3, h4⟩ := view_elseIfExpr (h y (.tail _ (.head _)))
        have hf : (Node.node .elseIfExpr [.tok a, e, .tok th, e']).flat = a :: (e.flat ++ th :: e'.flat) := by flat
        rw [yield_cons, yield_node, hf]
        exact ⟨a, _, rfl, .inr h1⟩
    obtain ⟨u, k, hk, hu⟩ := hd
    have ih := elseIfExprs_runs hs he n es (acc ++ [.node .elseIfExpr [.tok a, e, .tok th, e']]) (fun x hx => h x (.tail _ hx))
    rw [hk] at ih ⊢
    refine runs_bind (ifPart_runs hs h2 h3 h4 ?_) ?_
    · rcases hu with hu | hu
      · exact stop_sym hu rfl e'
      · exact stop_sym hu rfl e'
    · simpa using ih

theorem ifElse_runs (hs : RecF c self) {th el : TokRef} (a : TokRef) {e₁ e₂ e₃ : Node} {es : List Node} (h1 : Fits c .expr e₁) (h2 : Sym th .kThen) (h3 : Fits c .expr e₂)
    (h4 : ∀ x ∈ es, Fits c (.cat .elseIfExpr) x) (h5 : Sym el .kElse) (h6 : Fits c .expr e₃) {t : TokRef} (ht : Stop c e₃ t) :
    runs (expectIfElse self a) (e₁.flat ++ th :: (e₂.flat ++ (yield es ++ el :: (e₃.flat ++ t :: l))))
      (some (.node .ifExpr [.tok a, e₁, .tok th, e₂, optVec es, .tok el, e₃])) (t :: l) := by
  have hd : ∃ u k, yield es ++ el :: (e₃.flat ++ t :: l) = u :: k ∧ (Sym u .kElse ∨ Sym u .kElseIf) := by
    cases es with
    | nil => exact ⟨el, _, rfl, .inl h5⟩
    | cons y es =>
      obtain ⟨a, e, th, e', rfl, h1, h2, h3, h4⟩ := view_elseIfExpr (h4 y (.head _))
      have hf : (Node.node .elseIfExpr [.tok a, e, .tok th, e']).flat = a :: (e.flat ++ th :: e'.flat) := by flat
      rw [yield_cons, yield_node, hf]
      exact ⟨a, _, rfl, .inr h1⟩
  obtain ⟨u, k, hk, hu⟩ := hd
  have hes := fun n => elseIfExprs_runs hs h5 n es [] h4 (l := e₃.flat ++ t :: l)
  rw [hk] at hes ⊢
  unfold expectIfElse
  refine runs_bind (ifPart_runs hs h1 h2 h3 ?_) ?_
  · rcases hu with hu | hu
    · exact stop_sym hu rfl _
    · exact stop_sym hu rfl _
  · dsimp only
    rw [fuel_bind]
    refine runs_bind (hes _) ?_
    dsimp only
    rw [require_pos (is_iff.2 h5)]
    exact runs_bind (ifOperand_runs hs h6 ht) runs_pure

/-! ### Interpolated strings -/

theorem interpKind_some {t : TokRef} (h : t.token.type.kind = .interpolatedString) : ∃ k, interpKind t = some k := by
  unfold interpKind
  split
  · exact ⟨_, rfl⟩
  · rename_i h1
    cases h2 : t.token.type with
    | interpolated x k => exact absurd h2 (h1 x k)
    | _ => rw [h2] at h; cases h

theorem doubleBrace_runs {cur t : TokRef} (h : cur.trailing = [] → is .leftBrace t = false) : runs (doubleBrace cur) (t :: l) false (t :: l) := by
  unfold doubleBrace
  split
  · rename_i h1
    rw [consumeIf_neg (h (by simpa using h1))]
    exact runs_pure
  · exact runs_pure

theorem interpLoop_runs (hl : c.luau = true) (hs : RecF c self) {first last : TokRef} (hlast : interpKind last = some .end_) : ∀ (n : Nat) (ss acc : List Node) (cur : TokRef) (e : Node),
    (∀ x ∈ Node.node .interpSegment [.tok cur, e] :: ss, Fits c (.cat .interpSegment) x) → (∀ x ∈ ss, section? x ≠ some .end_) →
    runs (interpLoop self first n cur acc) (e.flat ++ (yield ss ++ last :: l)) (.node .interpString [vec (acc ++ .node .interpSegment [.tok cur, e] :: ss), .tok last]) l
  | 0, _, _, _, _, _, _ => runs_diverge
  | n + 1, ss, acc, cur, e, h, h' => by
    obtain ⟨cur', e', h0, h1, h2, h3⟩ := view_interpSegment hl (h _ (.head _))
    cases h0
    unfold interpLoop
    have hd : ∃ u k, yield ss ++ last :: l = u :: k ∧ (∃ i, interpKind u = some i ∧ (i = .end_ ∧ ss = [] ∧ u = last ∧ k = l ∨ i ≠ .end_ ∧ ∃ e' ss', ss = Node.node .interpSegment [.tok u, e'] :: ss' ∧ k = e'.flat ++ (yield ss' ++ last :: l))) := by
      cases ss with
      | nil => exact ⟨last, l, rfl, .end_, hlast, .inl ⟨rfl, rfl, rfl, rfl⟩⟩
      | cons y ss =>
        obtain ⟨a, e', rfl, h4, h5, h6⟩ := view_interpSegment hl (h y (.tail _ (.head _)))
        have hf : (Node.node .interpSegment [.tok a, e']).flat = a :: e'.flat := by flat
        obtain ⟨i, hi⟩ := interpKind_some h4
        rw [yield_cons, yield_node, hf]
        refine ⟨a, _, rfl, i, hi, .inr ⟨fun hx => h' _ (.head _) ?_, e', ss, rfl, by simp⟩⟩
        rw [← hx]; exact hi
    obtain ⟨u, k, hk, i, hi, hu⟩ := hd
    rw [hk]
    have hst : Stop c e u := stop_interp hi e
    obtain ⟨v, m, hv, -⟩ := expr_head h2 hst.ends
    have hdb : runs (doubleBrace cur) (e.flat ++ u :: k) false (e.flat ++ u :: k) := by
      rw [hv]
      refine doubleBrace_runs fun hx => ?_
      have := h3 hx
      simp only [startsTok, hv, List.head?_cons, Option.any_some, tokenIs, beq_eq_false_iff_ne] at this
      exact is_false_iff.2 this
    refine runs_bind hdb ?_
    refine runs_bind (hs.expr e u k h2 hst) ?_
    dsimp only [skipBrace]
    rw [if_neg (by simp)]
    refine runs_bind runs_pure ?_
    rw [current_bind]
    dsimp only
    rw [hi]
    rcases hu with ⟨rfl, rfl, rfl, rfl⟩ | ⟨h4, e', ss', rfl, rfl⟩
    · dsimp only
      rw [take_bind]
      exact runs_pure
    · have ih := interpLoop_runs hl hs hlast n ss' (acc ++ [.node .interpSegment [.tok cur, e]]) u e' (fun x hx => h x (.tail _ hx)) (fun x hx => h' x (.tail _ hx)) (first := first)
      have key : runs (consume >>= fun r => match r with
          | .value t => interpLoop self first n t (acc ++ [.node .interpSegment [.tok cur, e]])
          | _ => pure (interpBroken first (acc ++ [.node .interpSegment [.tok cur, e]]))) (u :: (e'.flat ++ (yield ss' ++ last :: l)))
          (.node .interpString [vec (acc ++ .node .interpSegment [.tok cur, e] :: .node .interpSegment [.tok u, e'] :: ss'), .tok last]) l := by
        refine runs_bind (a := .value u) (l1 := e'.flat ++ (yield ss' ++ last :: l)) (.inr rfl) ?_
        simpa using ih
      cases i with
      | end_ => exact absurd rfl h4
      | _ => exact key

theorem interp_runs (hl : c.luau = true) (hs : RecF c self) {ss : List Node} {last : TokRef} (h : ∀ x ∈ ss, Fits c (.cat .interpSegment) x)
    (hc : Connected c .interpString [vec ss, .tok last]) : ∃ t k i, yield ss ++ last :: l = t :: k ∧ interpKind t = some i ∧
      runs (interpolated self i) (t :: k) (.value (.node .exprInterp [.node .interpString [vec ss, .tok last]])) l := by
  cases ss with
  | nil =>
    have hi : interpKind last = some .simple := hc
    refine ⟨last, l, .simple, rfl, hi, ?_⟩
    unfold interpolated
    rw [take_bind]
    exact runs_pure
  | cons s ss =>
    obtain ⟨a, e, rfl, h4, h5, h6⟩ := view_interpSegment hl (h _ (.head _))
    have hf : (Node.node .interpSegment [.tok a, e]).flat = a :: e.flat := by flat
    obtain ⟨h7, h8, h9⟩ := (show section? (.node .interpSegment [.tok a, e]) = some .begin ∧ (∀ x ∈ ss, section? x ≠ some .end_) ∧ section? (.tok last) = some .end_ from hc)
    refine ⟨a, e.flat ++ (yield ss ++ last :: l), .begin, by rw [yield_cons, yield_node, hf]; simp, h7, ?_⟩
    unfold interpolated
    rw [take_bind]
    dsimp only
    refine runs_bind ?_ runs_pure
    unfold expectInterpolated
    rw [fuel_bind]
    exact interpLoop_runs hl hs h9 _ ss [] a e h h8

/-! ### All operands -/

theorem anonymous_runs (hs : RecF c self) {as : List Node} {u : TokRef} {b : Node} (h2 : Fits c (.cat .funcBody) b) {t : TokRef} :
    runs (anonymousFunction self c as) (u :: (b.flat ++ t :: l)) (.value (.node .exprFunction [.node .anonFunc [vec as, .tok u, b]])) (t :: l) := by
  unfold anonymousFunction
  rw [take_bind]
  exact runs_bind (body_runs hs h2) runs_pure

theorem primaryBase_runs (hs : RecF c self) {e : Node} {t : TokRef} (h : Fits c .expr e) (hk : isOne [.exprBinary, .exprAssertion] e = false) (ht : Base c e t) (ha : Ahead t l) :
    runs (primaryBase self c) (e.flat ++ t :: l) (.value e) (t :: l) := by
  have hv := view_expr h
  cases hv with
  | binary => simp [isOne, kindOf] at hk
  | assertion => simp [isOne, kindOf] at hk
  | @parens a b e h1 h2 h3 =>
    have := prefixExpression_runs (l := l) hs (ht.suffix rfl) ha (p := .expr (.node .exprParens [span a b, e])) ⟨a, b, e, rfl, h1, h2, h3⟩ (ss := []) nofun
    have hf : (Pre.expr (.node .exprParens [span a b, e])).node.flat = (Node.node .exprParens [span a b, e]).flat := by simp [Pre.node]
    rwa [hf] at this
  | @unary o u e h1 h2 h3 h4 =>
    have hf : (Node.node .exprUnary [.node (.unOp o) [.tok u], e]).flat = u :: e.flat := by flat
    have he : Ends c e t := ⟨fun n hn x hx => ht.op n hn x (by simp [rightEdge, hx]), fun hc => ht.suffix (by simpa [callable] using hc),
      fun hl hx => ht.assertion hl (by simpa [innerAsserts] using hx), fun hl ty hy => ht.type hl ty (by simpa [lastType] using hy)⟩
    obtain ⟨x, T, rfl, g1, g2, g3, g4, g5⟩ := links_of e t h3 he
    have ho : unaryOp c u = some o := by
      cases o <;> simp only [unarySymbol] at h1 <;> simp [unaryOp, is_sym h1]
      exact h2
    have hu : startsUnary c u = true := by
      cases o <;> simp only [unarySymbol] at h1 <;> simp [startsUnary, is_sym h1]
      have : c.lua53 = true := h2
      simp only [Cfg.lua53, Cfg.has, LuaVersion.has, Bool.and_eq_true_iff] at this
      exact this.1
    have key : runs (parseUnary self c u) ((spine x T).flat ++ t :: l) (.value (.node .exprUnary [.node (.unOp o) [.tok u], spine x T])) (t :: l) := by
      unfold parseUnary
      rw [ho]
      dsimp only
      rw [flat_spine, List.append_assoc]
      obtain ⟨k, hk, hka⟩ := hdTok_cons g3 ha
      have hp := hs.primary x (hdTok T t) k g1 g2 g4 hka
      rw [← hk] at hp
      refine runs_bind hp ?_
      dsimp only
      refine runs_bind (hs.climb x T UnOp.precedence t l g3 (unary_level h4 g5) (fun n hn => ?_) ha) ?_
      · have h5 := ht.op n hn .unary (by simp [rightEdge])
        have h6 := row_token hn
        have h7 : unaryRow = 10 := by decide
        simp only [keepsLeft, UnOp.precedence] at h5 ⊢
        omega
      · exact runs_pure
    rw [hf]
    simp only [primaryBase, List.cons_append, current_bind, isIdent_sym h1, isString_sym h1, isNumber_sym h1, hu]
    cases o <;> simp only [unarySymbol] at h1 <;> simpa [is_sym h1] using key
  | @function as u b h0 h1 h2 =>
    have hf : (Node.node .exprFunction [.node .anonFunc [vec as, .tok u, b]]).flat = yield as ++ u :: b.flat := by flat
    rw [hf, List.append_assoc, List.cons_append]
    cases as with
    | nil =>
      rw [yield_nil, List.nil_append]
      simp only [primaryBase, current_bind]
      simpa [is_sym h1] using anonymous_runs (as := []) hs h2
    | cons a as =>
      obtain ⟨x, k, hx, hx'⟩ := luauAttr_first h0 (t := u) (l := b.flat ++ t :: l)
      have hl : c.luau = true := (h0 a (.head _)).1
      have key : runs (attributedFunction self c) (yield (a :: as) ++ u :: (b.flat ++ t :: l)) (.value (.node .exprFunction [.node .anonFunc [vec (a :: as), .tok u, b]])) (t :: l) := by
        unfold attributedFunction
        refine runs_bind (attributes_runs (by simp [is_sym h1]) h0 (by simp)) ?_
        dsimp only
        rw [current_bind]
        dsimp only
        rw [if_pos (is_iff.2 h1)]
        exact anonymous_runs hs h2
      have hat : is .atSign x = true := by
        obtain ⟨-, p, q, rfl, h3, h4⟩ := h0 a (.head _)
        have hf : (Node.node .luauAttr [.tok p, .tok q]).flat = [p, q] := by flat
        rw [yield_cons, yield_node, hf] at hx
        cases hx
        exact is_iff.2 h3
      rw [hx] at key ⊢
      simp only [primaryBase, current_bind, hat, luau_feat hl, Bool.and_self, if_true]
      exact key
  | call h1 =>
    obtain ⟨p, ss, rfl, h2, h3, h4⟩ := view_call h1
    have := prefixExpression_runs (l := l) hs (ht.suffix rfl) ha h2 h3
    have hf : (Node.node .exprCall [callNode p ss]).flat = p.node.flat ++ yield ss := by simp [callNode]
    have hn : prefixExprNode p ss = .node .exprCall [callNode p ss] := by
      cases ss with
      | nil => cases h4
      | cons s ss => cases p <;> simp [prefixExprNode, h4]
    rw [hf, List.append_assoc, ← hn]
    exact this
  | table h1 =>
    obtain ⟨a, b, fs, rfl, h2, h3, h4, h5⟩ := view_table h1
    have hf : (Node.node .exprTable [.node .tableCtor [span a b, punct fs]]).flat = a :: (yield fs ++ [b]) := by flat
    rw [hf]
    have key : runs (forceTableConstructor self c a >>= fun x => pure (Res.value (Node.node .exprTable [x]))) (yield fs ++ b :: t :: l)
        (Res.value (.node .exprTable [.node .tableCtor [span a b, punct fs]])) (t :: l) := runs_bind (table_runs hs h3 (view_fields h4 h5)) runs_pure
    simp only [primaryBase, List.cons_append, current_bind, List.append_assoc, List.nil_append]
    simpa [is_sym h2, isIdent_sym h2, isString_sym h2, isNumber_sym h2, startsUnary] using key
  | @number u h1 =>
    have hf : (Node.node .exprNumber [.tok u]).flat = [u] := by flat
    rw [hf]
    simp only [primaryBase, List.cons_append, List.nil_append, current_bind, is_num h1, isString_num h1, isNumber_iff.2 h1, Bool.and_false, Bool.or_self, Bool.false_eq_true, if_false, if_true, take_bind]
    exact runs_pure
  | @string u h1 =>
    have hf : (Node.node .exprString [.tok u]).flat = [u] := by flat
    rw [hf]
    simp only [primaryBase, List.cons_append, List.nil_append, current_bind, is_str h1, isString_iff.2 h1, Bool.and_false, Bool.or_self, Bool.false_eq_true, if_false, if_true, take_bind]
    exact runs_pure
  | @symbol u s h1 h2 =>
    have hf : (Node.node .exprSymbol [.tok u]).flat = [u] := by flat
    rw [hf]
    have key : runs (pure (Res.value (Node.node .exprSymbol [.tok u])) : M (Res Node)) (t :: l) (.value (.node .exprSymbol [.tok u])) (t :: l) := runs_pure
    simp only [primaryBase, List.cons_append, List.nil_append, current_bind]
    rcases (by simpa using h1 : s = .kTrue ∨ s = .kFalse ∨ s = .kNil ∨ s = .ellipsis) with rfl | rfl | rfl | rfl <;> simpa [is_sym h2] using key
  | @var v h1 h0 =>
    obtain ⟨p, ss, rfl, h2, h3, h4⟩ := view_var h1
    have := prefixExpression_runs (l := l) hs (ht.suffix rfl) ha h2 h3
    have hf : (Node.node .exprVar [varNode p ss]).flat = p.node.flat ++ yield ss := by simp [varNode_flat, yield_pre]
    have hn : prefixExprNode p ss = .node .exprVar [varNode p ss] := by
      cases ss with
      | nil =>
        cases p with
        | name => rfl
        | expr => cases h0
      | cons s ss => cases p <;> simp [prefixExprNode, h4, varNode]
    rw [hf, List.append_assoc, ← hn]
    exact this
  | @if_ a th el e₁ e₂ e₃ es hl h1 h2 h3 h4 h5 h6 h7 =>
    have hf : (Node.node .exprIf [.node .ifExpr [.tok a, e₁, .tok th, e₂, optVec es, .tok el, e₃]]).flat = a :: (e₁.flat ++ th :: (e₂.flat ++ (yield es ++ el :: e₃.flat))) := by flat
    have hst : Stop c e₃ t := by
      refine ⟨?_, fun hc => ht.suffix (by simpa [callable] using hc), fun hl hx => ht.assertion hl (by simpa [innerAsserts] using hx),
        fun hl ty hy => ht.type hl ty (by simpa [lastType] using hy)⟩
      cases hp : BinOp.precedenceOfToken c.feat t with
      | none => rfl
      | some n => exact (ht.op n hp .open_ (by simp [rightEdge])).elim
    have key := runs_bind (ifElse_runs hs a h2 h3 h4 h5 h6 h7 hst (l := l)) (f := fun r => match r with
      | some e => pure (Res.value (Node.node .exprIf [e]))
      | none => pure .moved) runs_pure
    rw [hf]
    simp only [primaryBase, List.cons_append, List.append_assoc, current_bind, hl]
    simp [is_sym h1, isIdent_sym h1, isString_sym h1, isNumber_sym h1, startsUnary]
    exact key
  | @interp ss u hl h1 h2 =>
    have hf : (Node.node .exprInterp [.node .interpString [vec ss, .tok u]]).flat = yield ss ++ [u] := by flat
    rw [hf, List.append_assoc, List.singleton_append]
    obtain ⟨x, k, i, hx, hi, key⟩ := interp_runs (l := t :: l) hl hs h1 h2
    rw [hx]
    simp only [primaryBase, current_bind, is_interp hi, isIdent_interp hi, startsUnary, TokRef.isString, TokRef.isNumber, kind_interp hi, hl, hi]
    simpa using key

theorem primary_runs (hs : RecF c self) {e : Node} {t : TokRef} (h : Fits c .expr e) (hk : kindOf e ≠ some .exprBinary) (ht : Ends c e t) (ha : Ahead t l) :
    runs (parsePrimary self c) (e.flat ++ t :: l) (.value e) (t :: l) := by
  unfold parsePrimary
  cases hx : isOne [.exprBinary, .exprAssertion] e with
  | false =>
    have has : asserts e = true := by
      unfold asserts
      split
      · cases hx
      · cases hx
      · rfl
    refine runs_bind (primaryBase_runs hs h hx ⟨ht.1, ht.2.suffix, fun hl _ => ht.2.assertion hl has, ht.2.type⟩ ha) ?_
    dsimp only
    split
    · rename_i hl
      rw [consumeIf_neg (ht.2.assertion hl has)]
      exact runs_pure
    · exact runs_pure
  | true =>
    have hv := view_expr h
    cases hv with
    | binary => exact absurd rfl hk
    | @assertion e ty u hl h1 h2 h3 h4 h5 h6 =>
      have hf : (Node.node .exprAssertion [e, .node .typeAssertion [.tok u, ty]]).flat = e.flat ++ u :: ty.flat := by flat
      rw [hf, List.append_assoc, List.cons_append]
      have hb : Base c e u := ⟨(fun n hn => by rw [prec_sym h2 rfl] at hn; cases hn),
        fun _ => by simp [startsSuffix, is_sym h2, isString_sym h2], (fun _ hy => by rw [h6] at hy; cases hy), fun _ ty _ => follow_sym h2 rfl ty⟩
      refine runs_bind (primaryBase_runs hs h1 h5 hb fun hy => by simp [is_sym h2] at hy) ?_
      dsimp only
      rw [if_pos hl, consumeIf_pos (is_iff.2 h2)]
      dsimp only
      refine runs_bind (hs.type hl ty t l h3 h4 (ht.2.type hl ty (by simp [lastType]))) ?_
      exact runs_pure
    | _ => cases hx

/-! ## Operators -/

theorem spine_append {h : Node} {T T' : List Op} : spine h (T ++ T') = spine (spine h T) T' := List.foldl_append

/-- The token after the right operand of an operator does not belong to it. -/
def Leaves (c : Cfg) (level : Nat) (t : TokRef) : Prop :=
  ∀ n, BinOp.precedenceOfToken c.feat t = some n → n < level ∨ n = level ∧ BinOp.isRightAssociativeToken t = false

theorem rhsLoop_stop {level : Nat} {op t : TokRef} (ht : Leaves c level t) (n : Nat) (e : Node) :
    runs (rhsLoop self c level op n e) (t :: l) (some e) (t :: l) := by
  cases n with
  | zero => exact runs_diverge
  | succ n =>
    unfold rhsLoop
    rw [current_bind]
    dsimp only
    split
    · exact runs_pure
    · rename_i m hm
      rw [if_neg]
      · exact runs_pure
      · rcases ht m hm with h | ⟨h, h'⟩
        · simp; exact ⟨by omega, fun _ => by omega⟩
        · simp [h, h']

/-- One call of `parse_expression_with_precedence` for the right operand. -/
theorem rhsLoop_step (hs : RecF c self) {level p : Nat} {op t : TokRef} {x : Op} {T : List Op} (hT : Links c (x :: T) t)
    (hp : p = if level < x.op.level then level + 1 else level) (hx : level < x.op.level ∨ BinOp.isRightAssociativeToken x.tok = true ∧ x.op.level = level)
    (hlev : ∀ y ∈ x :: T, p ≤ y.op.level) (ht : ∀ n, BinOp.precedenceOfToken c.feat t = some n → n < p) (ha : Ahead t l)
    {l' : List TokRef} {v : Option Node} (e : Node) (hn : ∀ n, runs (rhsLoop self c level op n (spine e (x :: T))) (t :: l) v l') (n : Nat) :
    runs (rhsLoop self c level op n e) (yield (x :: T) ++ t :: l) v l' := by
  cases n with
  | zero => exact runs_diverge
  | succ n =>
    unfold rhsLoop
    have hc := hs.climb e (x :: T) p t l hT hlev ht ha
    have : yield (x :: T) ++ t :: l = x.tok :: (x.rhs.flat ++ (yield T ++ t :: l)) := by simp
    rw [this] at hc ⊢
    rw [current_bind]
    dsimp only
    rw [prec_op hT.1 hT.2.1]
    dsimp only
    rw [if_pos]
    · rw [← hp]
      exact runs_bind hc (hn n)
    · rcases hx with h | ⟨h, h'⟩
      · simp [h]
      · simp [h, h']

theorem takeWhile_split (p : α → Bool) (T : List α) : ∃ A B, T = A ++ B ∧ (∀ x ∈ A, p x = true) ∧ ∀ x B', B = x :: B' → p x = false := by
  induction T with
  | nil => exact ⟨[], [], rfl, nofun, nofun⟩
  | cons y T ih =>
    cases hy : p y with
    | false => exact ⟨[], y :: T, rfl, nofun, by rintro _ _ ⟨⟩; exact hy⟩
    | true =>
      obtain ⟨A, B, rfl, h1, h2⟩ := ih
      refine ⟨y :: A, B, rfl, fun x hx => ?_, h2⟩
      rcases List.mem_cons.1 hx with rfl | hx
      · exact hy
      · exact h1 x hx

theorem rhsLoop_runs (hs : RecF c self) {level : Nat} {op t : TokRef} (ht : Leaves c level t) (ha : Ahead t l) {T : List Op} (hT : Links c T t)
    (hr : ∀ x ∈ T, level < x.op.level ∨ BinOp.isRightAssociativeToken x.tok = true ∧ x.op.level = level) (h : Node) (n : Nat) :
    runs (rhsLoop self c level op n h) (yield T ++ t :: l) (some (spine h T)) (t :: l) := by
  have second : ∀ (B : List Op), Links c B t → (∀ x ∈ B, level < x.op.level ∨ BinOp.isRightAssociativeToken x.tok = true ∧ x.op.level = level) →
      (∀ x B', B = x :: B' → ¬ level < x.op.level) → ∀ e n, runs (rhsLoop self c level op n e) (yield B ++ t :: l) (some (spine e B)) (t :: l) := by
    intro B hB hr hB' e n
    cases B with
    | nil => exact rhsLoop_stop ht n e
    | cons x B =>
      have h1 := hB' x B rfl
      have h2 := (hr x (.head _)).resolve_left h1
      refine rhsLoop_step hs hB (p := level) (by rw [if_neg h1]) (.inr h2) (fun y hy => ?_) (fun m hm => ?_) ha e (fun n => rhsLoop_stop ht n _) n
      · rcases hr y hy with h | h
        · omega
        · omega
      · rcases ht m hm with h | ⟨h, h'⟩
        · exact h
        · exfalso
          have h3 := rightAssociative_same hm ((prec_op hB.1 hB.2.1).trans (by rw [h2.2, h]))
          rw [rightAssociative_token hm, rightAssociative_token (prec_op hB.1 hB.2.1), h', h2.1] at h3
          cases h3
  obtain ⟨A, B, rfl, h1, h2⟩ := takeWhile_split (fun x : Op => decide (level < x.op.level)) T
  have h2' : ∀ x B', B = x :: B' → ¬ level < x.op.level := fun x B' h => by simpa using h2 x B' h
  rw [links_append] at hT
  have hB := second B hT.2 (fun x hx => hr x (List.mem_append_right _ hx)) h2'
  cases A with
  | nil => exact hB h n
  | cons x A =>
    rw [yield_append, List.append_assoc, spine_append]
    obtain ⟨k, hk, hka⟩ := hdTok_cons hT.2 ha
    have hx : ∀ y ∈ x :: A, level < y.op.level := fun y hy => by simpa using h1 y hy
    have := rhsLoop_step (l := k) hs (v := some (spine (spine h (x :: A)) B)) (l' := t :: l) (op := op) hT.1 (p := level + 1) (by rw [if_pos (hx x (.head _))]) (.inl (hx x (.head _)))
      (fun y hy => hx y hy) (fun m hm => ?_) hka h (fun n => by rw [← hk]; exact hB _ n) n
    · rw [← hk] at this; exact this
    · cases B with
      | nil =>
        rcases ht m hm with h | ⟨h, -⟩
        · exact Nat.lt_succ_of_lt h
        · omega
      | cons y B =>
        have h3 := h2' y B rfl
        have h4 := prec_op (c := c) hT.2.1 hT.2.2.1
        rw [hdTok] at hm
        rw [hm] at h4
        cases h4
        omega

theorem climbLoop_runs (hs : RecF c self) {p : Nat} {t : TokRef} (ht : ∀ n, BinOp.precedenceOfToken c.feat t = some n → n < p) (ha : Ahead t l) :
    ∀ {T : List Op}, Links c T t → (∀ x ∈ T, p ≤ x.op.level) → ∀ n h, runs (climbLoop self c p n h) (yield T ++ t :: l) (.value (spine h T)) (t :: l)
  | _, _, _, 0, _ => runs_diverge
  | [], _, _, n + 1, h => by
    unfold climbLoop
    rw [yield_nil, List.nil_append, current_bind]
    dsimp only
    split
    · exact runs_pure
    · rename_i m hm
      rw [if_pos (ht m hm)]
      exact runs_pure
  | x :: T, hT, hlev, n + 1, h => by
    unfold climbLoop
    obtain ⟨k, hk, hka⟩ := hdTok_cons hT.2.2.2.2.2.2 ha
    have : yield (x :: T) ++ t :: l = x.tok :: (x.rhs.flat ++ (yield T ++ t :: l)) := by simp
    rw [this, current_bind]
    dsimp only
    rw [prec_op hT.1 hT.2.1]
    dsimp only
    rw [if_neg (Nat.not_lt.2 (hlev x (.head _))), accept_op hT.1 hT.2.1]
    dsimp only
    rw [take_bind]
    obtain ⟨h1, h2, h3, h4, h5, h6, h7⟩ := hT
    have hrow := row_symbol x.op
    obtain ⟨y, T', hy, g1, g2, g3, g4, g5⟩ := links_of x.rhs (hdTok T t) h3 h5
    rw [hy, flat_spine, List.append_assoc, hk]
    obtain ⟨k', hk', hka'⟩ := hdTok_cons g3 hka
    have hp := hs.primary y _ k' g1 g2 g4 hka'
    rw [← hk'] at hp
    refine runs_bind hp ?_
    dsimp only
    rw [fuel_bind]
    refine runs_bind (rhsLoop_runs hs (level := x.op.level) ?_ hka g3 ?_ y _) ?_
    · intro m hm
      have h8 := h6 m hm
      have h9 := row_token hm
      have h10 := rightAssociative_token hm
      simp only [keepsLeft] at h8
      rw [h10] at h8
      rcases h8 with h8 | ⟨h8, h8'⟩
      · left; omega
      · exact .inr ⟨by omega, h8'⟩
    · intro z hz
      have hz1 : Sym z.tok z.op.symbol ∧ c.hasAny z.op.gates = true := by
        clear hp hk' hka' g4 g5 hy
        induction T' with
        | nil => cases hz
        | cons w T' ih =>
          rcases List.mem_cons.1 hz with rfl | hz
          · exact ⟨g3.1, g3.2.1⟩
          · exact ih g3.2.2.2.2.2.2 hz
      have h8 := h4 z.op.symbol.text (by rw [hy] at g5 ⊢; exact g5 z hz)
      have h9 := row_symbol z.op
      rcases h8 with h8 | ⟨h8, h8'⟩
      · left; omega
      · right
        have h10 : x.op.level = z.op.level := by omega
        have h11 := rightAssociative_level _ _ h10
        have h12 := rightAssociative_token (prec_op (c := c) hz1.1 hz1.2)
        rw [display_symbol hz1.1, ← h11, h8'] at h12
        exact ⟨h12.symm, by omega⟩
    · dsimp only
      rw [← hk]
      have := climbLoop_runs hs ht ha h7 (fun z hz => hlev z (.tail _ hz)) n (.node .exprBinary [h, .node (.binOp x.op) [.tok x.tok], x.rhs])
      rw [hy] at this
      simpa [spine, hy] using this

theorem climb_runs (hs : RecF c self) {p : Nat} {t : TokRef} (ht : ∀ n, BinOp.precedenceOfToken c.feat t = some n → n < p) (ha : Ahead t l)
    {T : List Op} (hT : Links c T t) (hp : ∀ x ∈ T, p ≤ x.op.level) (h : Node) : runs (parseClimb self c h p) (yield T ++ t :: l) (.value (spine h T)) (t :: l) := by
  unfold parseClimb
  rw [fuel_bind]
  exact climbLoop_runs hs ht ha hT hp _ h

theorem expression_runs (hs : RecF c self) {e : Node} {t : TokRef} (h : Fits c .expr e) (ht : Stop c e t) :
    runs (parseExpression self c) (e.flat ++ t :: l) (.value e) (t :: l) := by
  obtain ⟨x, T, rfl, g1, g2, g3, g4, g5⟩ := links_of e t h ht.ends
  unfold parseExpression
  rw [flat_spine, List.append_assoc]
  obtain ⟨k, hk, hka⟩ := hdTok_cons g3 (ht.ahead (l := l))
  have hp := primary_runs (l := k) hs g1 g2 g4 hka
  rw [← hk] at hp
  refine runs_bind hp ?_
  exact climb_runs hs (fun n hn => by rw [ht.1] at hn; cases hn) ht.ahead g3 (fun x _ => Nat.zero_le _) x

theorem noExpression_runs {t : TokRef} (h : startsExpr c t = false) : runs (parseExpression self c) (t :: l) .notFound (t :: l) := by
  unfold parseExpression
  refine runs_bind (a := .notFound) (l1 := t :: l) ?_ runs_pure
  unfold parsePrimary
  refine runs_bind (a := .notFound) (l1 := t :: l) ?_ runs_pure
  simp only [startsExpr, Bool.or_eq_false_iff, Option.isSome_eq_false_iff, Option.isNone_iff_eq_none] at h
  simp only [primaryBase, current_bind, h, Bool.or_self, Bool.false_eq_true, if_false]
  exact runs_pure

end FM.Parser.Forward
