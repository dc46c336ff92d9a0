import Verif.Spec.Exchange
import Verif.Proofs.FromLua51

/-!
# Trees without what stands in their blocks

The conditions of the grammar on a node do not depend on the contents of the blocks inside.
-/

namespace FM.Spec
open FM FM.Parser

variable {c : Cfg}

/-- The tree without what stands in its blocks. -/
def hollow : Node → Node
  | .tok t => .tok t
  | .node k cs => if k = .block then .node .block [] else .node k (hollows cs)
where
  hollows : List Node → List Node
    | [] => []
    | c :: cs => hollow c :: hollows cs

theorem hollows_eq : ∀ cs : List Node, hollow.hollows cs = cs.map hollow
  | [] => rfl
  | c :: cs => by rw [hollow.hollows, hollows_eq cs]; rfl

@[simp] theorem hollow_tok (t : TokRef) : hollow (.tok t) = .tok t := by rw [hollow]
theorem hollow_block (cs : List Node) : hollow (.node .block cs) = .node .block [] := by rw [hollow, if_pos rfl]
theorem hollow_node {k : Kind} (h : k ≠ .block) (cs : List Node) : hollow (.node k cs) = .node k (cs.map hollow) := by
  rw [hollow, if_neg h, hollows_eq]

theorem hollow_inv {n : Node} {k : Kind} {ds : List Node} (h : hollow n = .node k ds) (hk : k ≠ .block) : ∃ cs, n = .node k cs ∧ ds = cs.map hollow := by
  cases n with
  | tok t => rw [hollow_tok] at h; cases h
  | node k' cs =>
    by_cases e : k' = .block
    · subst e; rw [hollow_block] at h; cases h; exact absurd rfl hk
    · rw [hollow_node e] at h; cases h; exact ⟨cs, rfl, rfl⟩

theorem hollow_tok_inv {n : Node} {t : TokRef} (h : hollow n = .tok t) : n = .tok t := by
  cases n with
  | tok t => rw [hollow_tok] at h; exact h
  | node k' cs =>
    by_cases e : k' = .block
    · subst e; rw [hollow_block] at h; cases h
    · rw [hollow_node e] at h; cases h


theorem hollow_eq {n : Node} {k : Kind} {ds : List Node} (hk : k ≠ .block) : hollow n = .node k ds ↔ ∃ cs, n = .node k cs ∧ cs.map hollow = ds :=
  ⟨fun h => (hollow_inv h hk).imp fun _ h => ⟨h.1, h.2.symm⟩, fun ⟨cs, h1, h2⟩ => by rw [h1, hollow_node hk, h2]⟩

@[simp] theorem hollow_eq_tok {n : Node} {t : TokRef} : hollow n = .tok t ↔ n = .tok t :=
  ⟨hollow_tok_inv, fun h => by rw [h, hollow_tok]⟩

theorem hollow_eq_cons {n : Node} {k : Kind} {t : Node} {ts : List Node} :
    hollow n = .node k (t :: ts) ↔ k ≠ .block ∧ ∃ x xs, n = .node k (x :: xs) ∧ hollow x = t ∧ xs.map hollow = ts := by
  constructor
  · intro h
    have hk : k ≠ .block := by
      rintro rfl
      cases n with
      | tok t => rw [hollow_tok] at h; cases h
      | node k' cs =>
        by_cases e : k' = .block
        · subst e; rw [hollow_block] at h; cases h
        · rw [hollow_node e] at h; injection h with h1 h2; exact absurd h1 e
    obtain ⟨cs, rfl, h1⟩ := hollow_inv h hk
    obtain ⟨x, xs, rfl, h2, h3⟩ := List.map_eq_cons_iff.1 h1.symm
    exact ⟨hk, x, xs, rfl, h2, h3⟩
  · rintro ⟨hk, x, xs, rfl, rfl, rfl⟩
    rw [hollow_node hk]; rfl

/-- The tree is not of any of the shapes, since its hollow form is not. -/
macro "hollow_other" : tactic => `(tactic| (
  split <;> first | rfl | skip
  all_goals (rename_i e; exfalso; revert e; simp only [hollow_eq_cons, hollow_eq, hollow_eq_tok, ne_eq, reduceCtorEq, not_false_eq_true, List.map_eq_cons_iff, List.map_eq_nil_iff, forall_exists_index, and_imp]; intros; subst_vars; first | solve_by_elim | (simp_all; done))))

theorem callable_hollow (n : Node) : callable (hollow n) = callable n := by
  fun_induction callable n with
  | case7 n h1 h2 h3 h4 h5 h6 => unfold callable; hollow_other
  | _ => simp_all [hollow_node, callable]

theorem kindOf_hollow (n : Node) : kindOf (hollow n) = kindOf n := by
  cases n with
  | tok t => rfl
  | node k cs =>
    by_cases e : k = .block
    · subst e; rw [hollow_block]; rfl
    · rw [hollow_node e]; rfl

theorem kindOf_block {n : Node} (h : kindOf n = some .block) : ∃ cs, n = .node .block cs := by
  cases n with
  | tok t => cases h
  | node k cs => cases h; exact ⟨cs, rfl⟩

theorem isOne_hollow (ks : List Kind) (n : Node) : isOne ks (hollow n) = isOne ks n := by rw [isOne, isOne, kindOf_hollow]

theorem variadic_hollow (n : Node) : variadic (hollow n) = variadic n := isOne_hollow _ n

theorem children_hollow {n : Node} (h : kindOf n ≠ some .block) : (hollow n).children = n.children.map hollow := by
  cases n with
  | tok t => rfl
  | node k cs => rw [hollow_node (by simpa [kindOf] using h)]; rfl

theorem led_hollow (n : Node) : led (hollow n) = led n := by
  fun_cases led n with
  | case3 n h1 h2 => unfold led; hollow_other
  | _ => simp [hollow_node, led, isOne_hollow]

/-- The nodes of the tree conform to the grammar. -/
abbrev Good (c : Cfg) (n : Node) : Prop := n.Every (Grammatical c)

theorem Good.child {k : Kind} {cs : List Node} (h : Good c (.node k cs)) {x : Node} (hx : x ∈ cs) : Good c x := (Clean.every_node.1 h).2 x hx

theorem Good.parts {k : Kind} {cs : List Node} (h : Good c (.node k cs)) (hk : k.cat ≠ none) : ConformsAll c (production c.feat k) cs :=
  ((Clean.every_node.1 h).1.1 hk).2

theorem pairs_kind {p : Part} {seps : List Symbol} {ds : List Node} (h : ConformsPairs c p seps ds) {x : Node} (hx : x ∈ ds) : kindOf x ≠ some .block := by
  induction ds with
  | nil => cases hx
  | cons d ds ih =>
    cases d with
    | tok t => simp [ConformsPairs] at h
    | node k cs =>
      unfold ConformsPairs at h
      split at h
      · rename_i e; cases e
      · rename_i e; cases e
        rcases List.mem_cons.1 hx with rfl | hx
        · simp [kindOf]
        · exact ih h.2 hx
      · rename_i e; cases e
        rcases List.mem_cons.1 hx with rfl | hx
        · simp [kindOf]
        · exact ih h.2 hx
      · exact h.elim

/-- The pairs of unions and intersections are not blocks. -/
theorem union_pairs {lead : Node} {pairs : List Node} {k : Kind} (hk : k = .typeUnion ∨ k = .typeIntersection)
    (h : Good c (.node k [lead, .node .punct pairs])) : ∀ x ∈ pairs, kindOf x ≠ some .block := by
  have h := h.parts (by rcases hk with rfl | rfl <;> decide)
  rcases hk with rfl | rfl
  all_goals
    obtain ⟨_, _, e, -, h⟩ := conformsAll_cons h
    cases e
    obtain ⟨_, _, e, h, -⟩ := conformsAll_cons h
    cases e
    obtain ⟨_, e, h, -⟩ := conforms_list h
    cases e
    exact fun x => pairs_kind h

theorem firstType_hollow (n : Node) (h : Good c n) : firstType (hollow n) = hollow (firstType n) := by
  fun_induction firstType n with
  | case4 n h1 h2 h3 => unfold firstType; hollow_other
  | case1 t x ih => simp_all [hollow_node, firstType, h.child (x := t) (by simp)]
  | case2 cs k t tail rest ih =>
    have h1 := h.child (List.mem_singleton.2 rfl)
    have hk : k ≠ .block := by simpa [kindOf] using union_pairs (.inl rfl) h1 (.node k (t :: tail)) (by simp)
    have h2 : Good c t := ((h1.child (x := .node .punct (.node k (t :: tail) :: rest)) (by simp)).child (x := .node k (t :: tail)) (by simp)).child (by simp)
    simp [hollow_node, firstType, hk, ih h2]
  | case3 cs k t tail rest ih =>
    have h1 := h.child (List.mem_singleton.2 rfl)
    have hk : k ≠ .block := by simpa [kindOf] using union_pairs (.inr rfl) h1 (.node k (t :: tail)) (by simp)
    have h2 : Good c t := ((h1.child (x := .node .punct (.node k (t :: tail) :: rest)) (by simp)).child (x := .node k (t :: tail)) (by simp)).child (by simp)
    simp [hollow_node, firstType, hk, ih h2]

theorem size_mem {x : Node} : ∀ {cs : List Node}, x ∈ cs → x.size ≤ Node.size.sizes cs
  | d :: ds, h => by
    rcases List.mem_cons.1 h with rfl | h
    · simp
    · have := size_mem h; simp; omega

theorem lastEnds_hollow : ∀ pairs : List Node, (∀ x ∈ pairs, kindOf x ≠ some .block) →
    (∀ k t tail, .node k (t :: tail) ∈ pairs → endsName (hollow t) = endsName t) → endsName.lastEnds (pairs.map hollow) = endsName.lastEnds pairs
  | [], _, _ => rfl
  | [.tok t], _, _ => by simp [endsName.lastEnds]
  | [.node k []], h, _ => by
    have : k ≠ .block := by simpa [kindOf] using h _ (List.mem_singleton.2 rfl)
    simp [endsName.lastEnds, hollow_node this]
  | [.node k (t :: tail)], h, h' => by
    have : k ≠ .block := by simpa [kindOf] using h _ (List.mem_singleton.2 rfl)
    simp [endsName.lastEnds, hollow_node this, h' k t tail (by simp)]
  | x :: y :: rest, h, h' => by
    have := lastEnds_hollow (y :: rest) (fun z hz => h z (.tail _ hz)) (fun k t tail hm => h' k t tail (.tail _ hm))
    simpa [endsName.lastEnds] using this

theorem endsName_hollow : ∀ (N : Nat) (n : Node), n.size < N → Good c n → endsName (hollow n) = endsName n := by
  intro N
  induction N with
  | zero => intro n h; omega
  | succ N ih =>
    intro n hN h
    fun_cases endsName n with
    | case1 t => simp [hollow_node, endsName]
    | case2 a b cs => simp [hollow_node, endsName]
    | case3 a b d e r =>
      simp only [hollow_node, ne_eq, reduceCtorEq, not_false_eq_true, List.map_cons, List.map_nil, endsName]
      exact ih r (by simp at hN; omega) (h.child (by simp))
    | case4 a pairs =>
      have h1 := h.child (List.mem_singleton.2 rfl)
      simp only [hollow_node, ne_eq, reduceCtorEq, not_false_eq_true, List.map_cons, List.map_nil, endsName]
      refine lastEnds_hollow pairs (union_pairs (.inl rfl) h1) fun k t tail hm => ih t ?_ (((h1.child (x := .node .punct _) (by simp)).child hm).child (by simp))
      have := size_mem hm
      simp at hN this; omega
    | case5 a pairs =>
      have h1 := h.child (List.mem_singleton.2 rfl)
      simp only [hollow_node, ne_eq, reduceCtorEq, not_false_eq_true, List.map_cons, List.map_nil, endsName]
      refine lastEnds_hollow pairs (union_pairs (.inr rfl) h1) fun k t tail hm => ih t ?_ (((h1.child (x := .node .punct _) (by simp)).child hm).child (by simp))
      have := size_mem hm
      simp at hN this; omega
    | case6 a t =>
      simp only [hollow_node, ne_eq, reduceCtorEq, not_false_eq_true, List.map_cons, List.map_nil, endsName]
      exact ih t (by simp at hN; omega) (h.child (by simp))
    | case7 n h1 h2 h3 h4 h5 h6 => unfold endsName; hollow_other

theorem packParam_hollow (n : Node) : packParam (hollow n) = packParam n := by
  fun_cases packParam n with
  | case2 n h1 => unfold packParam; hollow_other
  | _ => simp [hollow_node, packParam, isOne_hollow]

theorem hasDefault_hollow (n : Node) : hasDefault (hollow n) = hasDefault n := by
  fun_cases hasDefault n with
  | case2 n h1 => unfold hasDefault; hollow_other
  | _ => simp [hollow_node, hasDefault, isOne_hollow]

theorem argType_hollow (n : Node) : argType (hollow n) = (argType n).map fun p => (hollow p.1, p.2) := by
  fun_cases argType n with
  | case2 n h1 => unfold argType; hollow_other
  | _ => simp [hollow_node, argType, isOne_hollow]

theorem indexer_hollow (n : Node) : indexer (hollow n) = indexer n := by
  fun_cases indexer n with
  | case2 n h1 => unfold indexer; hollow_other
  | _ => simp [hollow_node, indexer, isOne_hollow]

theorem specType_hollow (n : Node) : specType (hollow n) = (specType n).map hollow := by
  fun_cases specType n with
  | case2 n h1 => unfold specType; hollow_other
  | _ => simp [hollow_node, specType]

theorem asserts_hollow (n : Node) : asserts (hollow n) = asserts n := by
  fun_induction asserts n with
  | case3 n h1 h2 => unfold asserts; hollow_other
  | _ => simp_all [hollow_node, asserts]

theorem innerAsserts_hollow (n : Node) : innerAsserts (hollow n) = innerAsserts n := by
  fun_cases innerAsserts n with
  | case3 n h1 h2 => unfold innerAsserts; hollow_other
  | _ => simp [hollow_node, innerAsserts, asserts_hollow]

theorem lastType_hollow (n : Node) : lastType (hollow n) = (lastType n).map hollow := by
  fun_induction lastType n with
  | case5 n h1 h2 h3 h4 => unfold lastType; hollow_other
  | _ => simp_all [hollow_node, lastType]

theorem section_hollow (n : Node) : section? (hollow n) = section? n := by
  unfold section?
  cases n with
  | tok t => rfl
  | node k cs =>
    by_cases e : k = .interpSegment
    · subst e
      rw [hollow_node (by decide)]
      match cs with
      | [] => rfl
      | .tok t :: _ => rfl
      | .node k' ds :: _ =>
        by_cases e : k' = .block
        · subst e; rw [List.map_cons, hollow_block]
        · rw [List.map_cons, hollow_node e]
    · by_cases e' : k = .block
      · subst e'; rw [hollow_block]
      · rw [hollow_node e']
        split <;> simp_all

/-! ## Lists -/

theorem elements_hollow {p : Part} {seps : List Symbol} {style : Style} {n : Node} (h : Conforms c (.list p seps style) n) :
    elements (hollow n) = (elements n).map hollow := by
  obtain ⟨ps, rfl, h, -⟩ := conforms_list h
  unfold elements
  rw [children_hollow (by simp [kindOf])]
  have key : ∀ ps : List Node, (∀ x ∈ ps, kindOf x ≠ some .block) →
      (ps.map hollow).filterMap (fun pair => pair.children.head?) = (ps.filterMap fun pair => pair.children.head?).map hollow := by
    intro ps
    induction ps with
    | nil => intro _; rfl
    | cons x ps ih =>
      intro this
      have hx := this x (by simp)
      rw [List.map_cons, List.filterMap_cons, List.filterMap_cons, ih fun y hy => this y (.tail _ hy), children_hollow hx]
      cases x.children <;> rfl
  exact key ps fun x => pairs_kind h

theorem list_good {n m : Node} (h : Good c n) (hm : m ∈ elements n) : Good c m := by
  unfold elements at hm
  obtain ⟨x, hx, hm⟩ := List.mem_filterMap.1 hm
  cases n with
  | tok t => cases hx
  | node k cs =>
    have := h.child hx
    cases x with
    | tok t => cases hm
    | node k ds => exact this.child (List.mem_of_head? hm)

theorem tuple_list {a types : Node} (h : Good c (.node .tyTuple [a, types])) : ∃ p seps style, Conforms c (.list p seps style) types := by
  have h := h.parts (by decide)
  obtain ⟨_, _, e, -, h⟩ := conformsAll_cons h
  cases e
  obtain ⟨_, _, e, h, -⟩ := conformsAll_cons h
  cases e
  exact ⟨_, _, _, h⟩

theorem list?_hollow {n : Node} (h : Good c n) : list? (hollow n) = list? n := by
  fun_cases list? n with
  | case1 a types =>
    obtain ⟨p, seps, style, h⟩ := tuple_list h
    simp [hollow_node, list?, elements_hollow h]
  | case2 n h1 => unfold list?; hollow_other

theorem pack?_hollow {n : Node} (h : Good c n) : pack? (hollow n) = pack? n := by
  unfold pack?
  by_cases e : ∃ a types, n = .node .tyTuple [a, types]
  · obtain ⟨a, types, rfl⟩ := e
    obtain ⟨p, seps, style, h⟩ := tuple_list h
    rw [hollow_node (by decide)]
    simp only [List.map_cons, List.map_nil, elements_hollow h]
    match elements types with
    | [] => rfl
    | [t] => simp [isOne_hollow]
    | _ :: _ :: _ => rfl
  · split
    · rename_i e'
      obtain ⟨cs, rfl, h2⟩ := hollow_inv e' (by decide)
      obtain ⟨x, y, rfl, -⟩ := map_eq_two h2
      exact absurd ⟨x, y, rfl⟩ e
    · split
      · exact absurd ⟨_, _, rfl⟩ e
      · rfl

theorem firstType_good (n : Node) (h : Good c n) : Good c (firstType n) := by
  fun_induction firstType n with
  | case1 t x ih => exact ih (h.child (by simp))
  | case2 cs k t tail rest ih => exact ih ((((h.child (List.mem_singleton.2 rfl)).child (x := .node .punct (.node k (t :: tail) :: rest)) (by simp)).child (x := .node k (t :: tail)) (by simp)).child (by simp))
  | case3 cs k t tail rest ih => exact ih ((((h.child (List.mem_singleton.2 rfl)).child (x := .node .punct (.node k (t :: tail) :: rest)) (by simp)).child (x := .node k (t :: tail)) (by simp)).child (by simp))
  | case4 => exact h

theorem single_hollow {n : Node} (h : Good c n) : single (hollow n) = single n := by
  rw [single, single, variadic_hollow, firstType_hollow n h, pack?_hollow (firstType_good n h)]

theorem openCallback_hollow {n : Node} (h : Good c n) : openCallback (hollow n) = openCallback n := by
  fun_cases openCallback n with
  | case1 a b d e r => simp [hollow_node, openCallback, isOne_hollow, list?_hollow (h.child (x := r) (by simp))]
  | case2 n h1 => unfold openCallback; hollow_other

/-! ## First tokens -/

/-- What the part stands for is not a block, nor a list of blocks. -/
def Part.unblocked : Part → Bool
  | .cat a => a != .block
  | .opt p | .many p | .some p | .list p _ _ => p.unblocked
  | .pair p q => p.unblocked && q.unblocked
  | .tok _ | .span _ _ | .type => true

/-- There is a token in front of the first block. -/
def headSafe : List Part → Bool
  | [] => true
  | .tok _ :: _ => true
  | p :: ps => p.unblocked && headSafe ps

theorem headSafe_production (f : Features) (k : Kind) (h : k.layout = none) (hk : k ≠ .block) : headSafe (production f k) = true := by
  obtain ⟨f1, f2, f3, f4, f5, f6⟩ := f
  cases k with
  | binOp o => cases o <;> rfl
  | unOp o => cases o <;> rfl
  | compoundOp o => cases o <;> rfl
  | _ => first | exact absurd rfl hk | (cases h; done) | (cases f6 <;> rfl)

theorem flat_concat {k : Kind} (h : k.layout = none) (cs : List Node) : (Node.node k cs).flat = cs.flatMap Node.flat := by
  rw [Node.flat_node, h]
  simp [arrange, concat, List.flatMap_map, R.of]

theorem conforms_token {t : Term} {n : Node} (h : Conforms c (.tok t) n) : ∃ u, n = .tok u := by
  cases n with
  | tok u => exact ⟨u, rfl⟩
  | node k cs => simp [Conforms] at h

theorem heads_all : ∀ (ps : List Part) {cs : List Node}, ConformsAll c ps cs → headSafe ps = true →
    (∀ x ∈ cs, ∀ p : Part, p.unblocked = true → Conforms c p x → (hollow x).flat.head? = x.flat.head?) →
    ((cs.map hollow).flatMap Node.flat).head? = (cs.flatMap Node.flat).head?
  | [], cs, h, _, _ => by obtain rfl := conformsAll_nil h; rfl
  | p :: ps, cs, h, hs, ih => by
    obtain ⟨x, xs, rfl, hx, h⟩ := conformsAll_cons h
    by_cases ht : ∃ t, p = .tok t
    · obtain ⟨t, rfl⟩ := ht
      obtain ⟨u, rfl⟩ := conforms_token hx
      rw [List.map_cons, hollow_tok]
      simp
    · have hs' : p.unblocked = true ∧ headSafe ps = true := by
        cases p <;> first | exact absurd ⟨_, rfl⟩ ht | simpa [headSafe] using hs
      rw [List.map_cons, List.flatMap_cons, List.flatMap_cons, List.head?_append, List.head?_append, ih x (by simp) p hs'.1 hx,
        heads_all ps h hs'.2 fun y hy => ih y (.tail _ hy)]

theorem heads_each {cs : List Node} (h : ∀ x ∈ cs, (hollow x).flat.head? = x.flat.head?) :
    ((cs.map hollow).flatMap Node.flat).head? = (cs.flatMap Node.flat).head? := by
  induction cs with
  | nil => rfl
  | cons x cs ih =>
    rw [List.map_cons, List.flatMap_cons, List.flatMap_cons, List.head?_append, List.head?_append, h x (by simp), ih fun y hy => h y (.tail _ hy)]

theorem head_layout {k : Kind} {cs : List Node} (hl : k.layout ≠ none) (h : ConformsAll c (production c.feat k) cs)
    (ih : ∀ x ∈ cs, ∀ p : Part, p.unblocked = true → Conforms c p x → (hollow x).flat.head? = x.flat.head?) :
    (Node.node k (cs.map hollow)).flat.head? = (Node.node k cs).flat.head? := by
  rw [Node.flat_node, Node.flat_node]
  cases k with
  | numericFor | genericFor | localAssignment | tyGeneric | tyTypeof | idxGeneric =>
    obtain ⟨x, _, rfl, hx, h⟩ := conformsAll_cons h
    obtain ⟨u, rfl⟩ := conforms_token hx
    simp [arrange, Kind.layout, Slot.run, R.nth, R.of]
  | fieldExprKey | tableCtor | exprParens | indexBrackets | argsParens | «attribute» | tyArray | tyTable | tyTuple | keyIndex | genericDecl | typeInst =>
    obtain ⟨x, _, rfl, hx, h⟩ := conformsAll_cons h
    obtain ⟨t, u, rfl, -⟩ := conforms_span hx
    simp [arrange, Kind.layout, Slot.run, R.nth, R.of, Node.spanOf, hollow_node, Node.children, part]
  | funcBody | tyCallback =>
    obtain ⟨y, _, rfl, hy, h⟩ := conformsAll_cons h
    obtain ⟨x, _, rfl, hx, h⟩ := conformsAll_cons h
    obtain ⟨t, u, rfl, -⟩ := conforms_span hx
    have := ih y (by simp) _ rfl hy
    simp [arrange, Kind.layout, Slot.run, R.nth, R.of, Node.spanOf, hollow_node, Node.children, part, this]
  | _ => exact absurd rfl hl

theorem head_cat {a : Cat} {k : Kind} {cs : List Node} (hk : k.cat = some a) (ha : a ≠ .block) (h : ConformsAll c (production c.feat k) cs)
    (ih : ∀ x ∈ cs, ∀ p : Part, p.unblocked = true → Conforms c p x → (hollow x).flat.head? = x.flat.head?) :
    (hollow (.node k cs)).flat.head? = (Node.node k cs).flat.head? := by
  have hb : k ≠ .block := by rintro rfl; cases hk; exact ha rfl
  rw [hollow_node hb]
  by_cases hl : k.layout = none
  · rw [flat_concat hl, flat_concat hl]
    exact heads_all _ h (headSafe_production _ k hl hb) ih
  · exact head_layout hl h ih

theorem conformsPairs_cons {p : Part} {seps : List Symbol} {x : Node} {ds : List Node} (h : ConformsPairs c p seps (x :: ds)) :
    (∃ y, x = .node .pairEnd [y] ∧ Conforms c p y ∨ ∃ t, x = .node .pairPunct [y, .tok t] ∧ Conforms c p y ∧ Conforms c (.tok (.sym seps)) (.tok t)) ∧
      ConformsPairs c p seps ds := by
  cases x with
  | tok t => simp [ConformsPairs] at h
  | node k cs =>
    unfold ConformsPairs at h
    split at h
    · rename_i e; cases e
    · rename_i e; cases e
      refine ⟨?_, h.2⟩
      obtain ⟨y, _, rfl, hy, h1⟩ := conformsAll_cons h.1
      obtain rfl := conformsAll_nil h1
      exact ⟨y, .inl ⟨rfl, hy⟩⟩
    · rename_i e; cases e
      refine ⟨?_, h.2⟩
      obtain ⟨y, _, rfl, hy, h1⟩ := conformsAll_cons h.1
      obtain ⟨z, _, rfl, hz, h1⟩ := conformsAll_cons h1
      obtain rfl := conformsAll_nil h1
      obtain ⟨u, rfl⟩ := conforms_token hz
      exact ⟨y, .inr ⟨u, rfl, hy, hz⟩⟩
    · exact h.elim

theorem pairs_mem {p : Part} {seps : List Symbol} {ds : List Node} (h : ConformsPairs c p seps ds) : ∀ x ∈ ds, ConformsPairs c p seps [x] := by
  induction ds with
  | nil => nofun
  | cons y ys ih =>
    intro x hx
    rcases List.mem_cons.1 hx with rfl | hx
    · obtain ⟨⟨y, h1⟩, -⟩ := conformsPairs_cons h
      rcases h1 with ⟨rfl, h1⟩ | ⟨t, rfl, h1, h2⟩
      · simp only [ConformsPairs, ConformsAll]; exact ⟨⟨h1, trivial⟩, trivial⟩
      · simp only [ConformsPairs, ConformsAll]; exact ⟨⟨h1, h2, trivial⟩, trivial⟩
    · exact ih (conformsPairs_cons h).2 x hx

/-- The first token does not change, since it is not in a block. -/
theorem head_hollow (n : Node) : ∀ p : Part, p.unblocked = true → Conforms c p n → (hollow n).flat.head? = n.flat.head? := by
  suffices H : (∀ p : Part, p.unblocked = true → Conforms c p n → (hollow n).flat.head? = n.flat.head?) ∧
      ∀ p seps, p.unblocked = true → ConformsPairs c p seps [n] → (hollow n).flat.head? = n.flat.head? from H.1
  induction n using Node.induct with
  | ht t => exact ⟨fun _ _ _ => rfl, fun _ _ _ _ => rfl⟩
  | hn k cs ih =>
    refine ⟨fun p hp h => ?_, fun p seps hp h => ?_⟩
    · have ih1 : ∀ x ∈ cs, ∀ p : Part, p.unblocked = true → Conforms c p x → (hollow x).flat.head? = x.flat.head? := fun x hx => (ih x hx).1
      unfold Conforms at h
      split at h
      · cases ‹Node.node k cs = .tok _›
      · cases ‹Node.node k cs = _›
        rw [hollow_node (by decide), flat_concat rfl, flat_concat rfl]
        exact heads_all _ h rfl ih1
      · cases ‹Node.node k cs = _›
        exact head_cat h.1 (by simpa [Part.unblocked] using hp) h.2.2.1 ih1
      · cases ‹Node.node k cs = _›
        exact head_cat h.1 (by decide) h.2.2.2.1 ih1
      · cases ‹Node.node k cs = _›; subst h; rw [hollow_node (by decide)]; rfl
      · cases ‹Node.node k cs = _›
        rw [hollow_node (by decide), flat_concat rfl, flat_concat rfl]
        obtain ⟨x, _, rfl, hx, h⟩ := conformsAll_cons h
        obtain rfl := conformsAll_nil h
        rename_i p' _; exact heads_each (by simpa using ih1 x (by simp) p' hp hx)
      · cases ‹Node.node k cs = _›
        rw [hollow_node (by decide), flat_concat rfl, flat_concat rfl]
        exact heads_each fun x hx => ih1 x hx _ (by exact hp) (each_mem h x hx)
      · cases ‹Node.node k cs = _›
        rw [hollow_node (by decide), flat_concat rfl, flat_concat rfl]
        exact heads_each fun x hx => ih1 x hx _ (by exact hp) (each_mem h.1 x hx)
      · cases ‹Node.node k cs = _›
        rw [hollow_node (by decide), flat_concat rfl, flat_concat rfl]
        exact heads_each fun x hx => (ih x hx).2 _ _ (by exact hp) (pairs_mem h.1 x hx)
      · cases ‹Node.node k cs = _›
        rw [hollow_node (by decide), flat_concat rfl, flat_concat rfl]
        obtain ⟨x, _, rfl, hx, h⟩ := conformsAll_cons h
        obtain ⟨y, _, rfl, hy, h⟩ := conformsAll_cons h
        obtain rfl := conformsAll_nil h
        simp only [Part.unblocked, Bool.and_eq_true] at hp
        exact heads_each (by simpa using ⟨ih1 x (by simp) _ hp.1 hx, ih1 y (by simp) _ hp.2 hy⟩)
      · exact h.elim
    · obtain ⟨⟨y, h1⟩, -⟩ := conformsPairs_cons h
      rcases h1 with ⟨e, h1⟩ | ⟨t, e, h1, h2⟩
      · cases e
        rw [hollow_node (by decide), flat_concat rfl, flat_concat rfl]
        exact heads_each (by simpa using (ih y (by simp)).1 _ hp h1)
      · cases e
        rw [hollow_node (by decide), flat_concat rfl, flat_concat rfl]
        exact heads_each (by simpa using (ih y (by simp)).1 _ hp h1)

theorem startsTok_hollow {q : TokRef → Bool} {n : Node} {p : Part} (h : Conforms c p n) (hp : p.unblocked = true) : startsTok q (hollow n) = startsTok q n := by
  rw [startsTok, startsTok, head_hollow n p hp h]

theorem startsParen_hollow {n : Node} {p : Part} (h : Conforms c p n) (hp : p.unblocked = true) : startsParen (hollow n) = startsParen n := by
  rw [startsParen, startsParen, head_hollow n p hp h]

/-! ## Statements and operators -/

theorem lastCallable_hollow {p : Part} {seps : List Symbol} {style : Style} {n : Node} (h : Conforms c (.list p seps style) n) :
    lastCallable (hollow n) = lastCallable n := by
  obtain ⟨ds, rfl, h, -⟩ := conforms_list h
  unfold lastCallable
  rw [children_hollow (by simp [kindOf]), List.getLast?_map]
  show (match ds.getLast?.map hollow with | some pair => pair.children.head?.any callable | none => false) = match ds.getLast? with | some pair => pair.children.head?.any callable | none => false
  cases hl : ds.getLast? with
  | none => rfl
  | some x =>
    simp only [Option.map_some, children_hollow (pairs_kind h (List.mem_of_getLast? hl)), List.head?_map, Option.any_map]
    cases x.children.head? with
    | none => rfl
    | some y => exact callable_hollow y

theorem lastAsserts_hollow {p : Part} {seps : List Symbol} {style : Style} {n : Node} (h : Conforms c (.list p seps style) n) :
    lastAsserts (hollow n) = lastAsserts n := by
  obtain ⟨ds, rfl, h, -⟩ := conforms_list h
  unfold lastAsserts
  rw [children_hollow (by simp [kindOf]), List.getLast?_map]
  show (match ds.getLast?.map hollow with | some pair => pair.children.head?.any asserts | none => false) = match ds.getLast? with | some pair => pair.children.head?.any asserts | none => false
  cases hl : ds.getLast? with
  | none => rfl
  | some x =>
    simp only [Option.map_some, children_hollow (pairs_kind h (List.mem_of_getLast? hl)), List.head?_map, Option.any_map]
    cases x.children.head? with
    | none => rfl
    | some y => exact asserts_hollow y

theorem ends_hollow {n : Node} (h : Conforms c (.cat .stmt) n) : endsCallable (hollow n) = endsCallable n ∧ endsAsserts (hollow n) = endsAsserts n := by
  obtain ⟨k, cs, rfl, h1, h2, h3, -⟩ := conforms_cat h
  clear h h2
  cases k with
  | stmtAssignment =>
    obtain ⟨x, _, rfl, hx, h3⟩ := conformsAll_cons h3
    obtain rfl := conformsAll_nil h3
    obtain ⟨k, cs, rfl, h1, -, h3, -⟩ := conforms_cat hx
    cases k <;> cases h1
    obtain ⟨x, _, rfl, -, h3⟩ := conformsAll_cons h3
    obtain ⟨y, _, rfl, -, h3⟩ := conformsAll_cons h3
    obtain ⟨z, _, rfl, hz, h3⟩ := conformsAll_cons h3
    obtain rfl := conformsAll_nil h3
    rw [hollow_node (by decide), List.map_cons, hollow_node (by decide)]
    exact ⟨lastCallable_hollow hz, lastAsserts_hollow hz⟩
  | stmtLocalAssignment =>
    obtain ⟨x, _, rfl, hx, h3⟩ := conformsAll_cons h3
    obtain rfl := conformsAll_nil h3
    obtain ⟨k, cs, rfl, h1, -, h3, -⟩ := conforms_cat hx
    cases k <;> cases h1
    obtain ⟨x, _, rfl, -, h3⟩ := conformsAll_cons h3
    obtain ⟨y, _, rfl, -, h3⟩ := conformsAll_cons h3
    obtain ⟨y, _, rfl, -, h3⟩ := conformsAll_cons h3
    obtain ⟨y, _, rfl, -, h3⟩ := conformsAll_cons h3
    obtain ⟨y, _, rfl, -, h3⟩ := conformsAll_cons h3
    obtain ⟨z, _, rfl, hz, h3⟩ := conformsAll_cons h3
    obtain rfl := conformsAll_nil h3
    rw [hollow_node (by decide), List.map_cons, hollow_node (by decide)]
    exact ⟨lastCallable_hollow hz, lastAsserts_hollow hz⟩
  | stmtRepeat =>
    obtain ⟨x, _, rfl, hx, h3⟩ := conformsAll_cons h3
    obtain rfl := conformsAll_nil h3
    obtain ⟨k, cs, rfl, h1, -, h3, -⟩ := conforms_cat hx
    cases k <;> cases h1
    match cs, all_shape h3 with
    | [_, _, _, z], _ =>
      rw [hollow_node (by decide), List.map_cons, hollow_node (by decide)]
      exact ⟨callable_hollow z, asserts_hollow z⟩
  | stmtCompound =>
    obtain ⟨x, _, rfl, hx, h3⟩ := conformsAll_cons h3
    obtain rfl := conformsAll_nil h3
    obtain ⟨k, cs, rfl, h1, -, h3, -⟩ := conforms_cat hx
    cases k <;> cases h1
    match cs, all_shape h3 with
    | [_, _, z], _ =>
      rw [hollow_node (by decide), List.map_cons, hollow_node (by decide)]
      exact ⟨callable_hollow z, asserts_hollow z⟩
  | _ => first | (cases h1; done) | (rw [hollow_node (by decide)]; exact ⟨rfl, rfl⟩)

theorem binOp_hollow {n : Node} (h : Conforms c (.cat .binOp) n) : hollow n = n := by
  obtain ⟨k, cs, rfl, h1, -, h3, -⟩ := conforms_cat h
  cases k <;> cases h1
  obtain ⟨x, _, rfl, hx, h3⟩ := conformsAll_cons h3
  obtain rfl := conformsAll_nil h3
  obtain ⟨t, rfl⟩ := conforms_token hx
  rw [hollow_node (by simp), List.map_cons, List.map_nil, hollow_tok]

theorem edges_hollow (n : Node) : Conforms c (.cat .expr) n → rightEdge (hollow n) = rightEdge n ∧ leftEdge (hollow n) = leftEdge n := by
  induction n using Node.induct with
  | ht t => intro _; rw [hollow_tok]; exact ⟨rfl, rfl⟩
  | hn k cs ih =>
    intro h
    rw [Conforms] at h
    obtain ⟨h1, h2, h3, -⟩ := h
    clear h2
    cases k with
    | exprBinary =>
      obtain ⟨x, _, rfl, hx, h3⟩ := conformsAll_cons h3
      obtain ⟨y, _, rfl, hy, h3⟩ := conformsAll_cons h3
      obtain ⟨z, _, rfl, hz, h3⟩ := conformsAll_cons h3
      obtain rfl := conformsAll_nil h3
      rw [hollow_node (by decide)]
      simp only [List.map_cons, List.map_nil, rightEdge, leftEdge, binOp_hollow hy, (ih x (by simp) hx).2, (ih z (by simp) hz).1, and_self]
    | exprUnary =>
      obtain ⟨y, _, rfl, hy, h3⟩ := conformsAll_cons h3
      obtain ⟨z, _, rfl, hz, h3⟩ := conformsAll_cons h3
      obtain rfl := conformsAll_nil h3
      rw [hollow_node (by decide)]
      simp only [List.map_cons, List.map_nil, rightEdge, leftEdge, (ih z (by simp) hz).1, and_self]
    | _ => first | (cases h1; done) | (rw [hollow_node (by decide)]; exact ⟨rfl, rfl⟩)

theorem parenthesised_hollow {n : Node} (h : Conforms c (.cat .var) n) : parenthesised (hollow n) = parenthesised n := by
  obtain ⟨k, cs, rfl, h1, -, h3, -⟩ := conforms_cat h
  cases k <;> cases h1
  · obtain ⟨x, _, rfl, hx, h3⟩ := conformsAll_cons h3
    obtain rfl := conformsAll_nil h3
    obtain ⟨k, cs, rfl, h1, -, h3, -⟩ := conforms_cat hx
    cases k <;> cases h1
    obtain ⟨x, _, rfl, -, h3⟩ := conformsAll_cons h3
    obtain ⟨y, _, rfl, hy, h3⟩ := conformsAll_cons h3
    obtain rfl := conformsAll_nil h3
    obtain ⟨ds, rfl, -⟩ := conforms_many hy
    simp [hollow_node, parenthesised, Node.children]
  · rw [hollow_node (by decide)]; rfl

theorem distincts_hollow {ds : List Node} (h : ConformsEach c (.pair (.cat .stmt) (.opt (.sym .semicolon))) ds) :
    distincts (ds.map hollow) ↔ distincts ds := by
  induction ds with
  | nil => exact Iff.rfl
  | cons a ds ih =>
    rw [ConformsEach] at h
    have ih := ih h.2
    cases ds with
    | nil => exact Iff.rfl
    | cons b ds =>
      have hb := h.2
      rw [ConformsEach] at hb
      refine and_congr ?_ ih
      cases a with
      | tok t => exact Iff.rfl
      | node k cs =>
        have ha := h.1
        cases k <;> simp only [Conforms] at ha
        obtain ⟨x, _, rfl, hx, ha⟩ := conformsAll_cons ha
        obtain ⟨y, _, rfl, hy, ha⟩ := conformsAll_cons ha
        obtain rfl := conformsAll_nil ha
        rw [hollow_node (by decide)]
        simp only [List.map_cons, List.map_nil, distinct, kindOf_hollow, (ends_hollow hx).1, startsParen_hollow hb.1 rfl]

theorem unasserteds_hollow {ds : List Node} (h : ConformsEach c (.pair (.cat .stmt) (.opt (.sym .semicolon))) ds) :
    unasserteds (ds.map hollow) ↔ unasserteds ds := by
  induction ds with
  | nil => exact Iff.rfl
  | cons a ds ih =>
    rw [ConformsEach] at h
    have ih := ih h.2
    cases ds with
    | nil => exact Iff.rfl
    | cons b ds =>
      have hb := h.2
      rw [ConformsEach] at hb
      refine and_congr ?_ ih
      cases a with
      | tok t => exact Iff.rfl
      | node k cs =>
        have ha := h.1
        cases k <;> simp only [Conforms] at ha
        obtain ⟨x, _, rfl, hx, ha⟩ := conformsAll_cons ha
        obtain ⟨y, _, rfl, hy, ha⟩ := conformsAll_cons ha
        obtain rfl := conformsAll_nil ha
        rw [hollow_node (by decide)]
        simp only [List.map_cons, List.map_nil, unasserted, kindOf_hollow, (ends_hollow hx).2, startsTok_hollow hb.1 rfl]

/-! ## The conditions on a node -/

theorem last_kind_hollow {l : List Node} : (l.map hollow).getLast?.bind kindOf = l.getLast?.bind kindOf := by
  rw [List.getLast?_map]
  cases l.getLast? with
  | none => rfl
  | some x => exact kindOf_hollow x

theorem namedParam_hollow {x : Node} (h : kindOf x ≠ some .block) : namedParam (hollow x) = namedParam x := by
  rw [namedParam, namedParam, children_hollow h, List.head?_map]
  cases x.children.head? with
  | none => rfl
  | some y => simp [kindOf_hollow]

theorem connected_hollow {k : Kind} {cs : List Node} (hall : ConformsAll c (production c.feat k) cs) :
    Connected c k (cs.map hollow) ↔ Connected c k cs := by
  cases k with
  | block =>
    obtain ⟨x, _, rfl, hx, hall⟩ := conformsAll_cons hall
    obtain ⟨y, _, rfl, hy, hall⟩ := conformsAll_cons hall
    obtain rfl := conformsAll_nil hall
    obtain ⟨ds, rfl, hx⟩ := conforms_many hx
    simp only [List.map_cons, List.map_nil, hollow_node (show Kind.vec ≠ .block by decide)]
    exact distincts_hollow hx
  | exprBinary =>
    obtain ⟨x, _, rfl, hx, hall⟩ := conformsAll_cons hall
    obtain ⟨y, _, rfl, hy, hall⟩ := conformsAll_cons hall
    obtain ⟨z, _, rfl, hz, hall⟩ := conformsAll_cons hall
    obtain rfl := conformsAll_nil hall
    simp only [List.map_cons, List.map_nil, Connected, binOp_hollow hy, (edges_hollow x hx).1, (edges_hollow z hz).2]
  | exprUnary =>
    obtain ⟨x, _, rfl, hx, hall⟩ := conformsAll_cons hall
    obtain ⟨z, _, rfl, hz, hall⟩ := conformsAll_cons hall
    obtain rfl := conformsAll_nil hall
    simp only [List.map_cons, List.map_nil, Connected, (edges_hollow z hz).2]
  | exprVar =>
    obtain ⟨x, _, rfl, hx, hall⟩ := conformsAll_cons hall
    obtain rfl := conformsAll_nil hall
    simp only [List.map_cons, List.map_nil, Connected, parenthesised_hollow hx]
  | prefixExpr =>
    obtain ⟨x, _, rfl, hx, hall⟩ := conformsAll_cons hall
    obtain rfl := conformsAll_nil hall
    simp only [List.map_cons, List.map_nil, Connected, kindOf_hollow]
  | functionCall =>
    obtain ⟨x, _, rfl, hx, hall⟩ := conformsAll_cons hall
    obtain ⟨z, _, rfl, hz, hall⟩ := conformsAll_cons hall
    obtain rfl := conformsAll_nil hall
    obtain ⟨ds, rfl, -⟩ := conforms_many hz
    simp only [List.map_cons, List.map_nil, Connected, hollow_node (show Kind.vec ≠ .block by decide), Node.children, last_kind_hollow]
  | varExpr =>
    obtain ⟨x, _, rfl, hx, hall⟩ := conformsAll_cons hall
    obtain ⟨z, _, rfl, hz, hall⟩ := conformsAll_cons hall
    obtain rfl := conformsAll_nil hall
    obtain ⟨ds, rfl, -⟩ := conforms_many hz
    simp only [List.map_cons, List.map_nil, Connected, hollow_node (show Kind.vec ≠ .block by decide), Node.children, last_kind_hollow, List.map_eq_nil_iff, kindOf_hollow]
  | ifBlock =>
    match cs, all_shape hall with
    | [_, _, _, _, _, _, _, _], _ => simp only [List.map_cons, List.map_nil, Connected, kindOf_hollow]
  | numericFor =>
    match cs, all_shape hall with
    | [_, _, _, _, _, _, _, _, _, _, _, _], _ => simp only [List.map_cons, List.map_nil, Connected, kindOf_hollow]
  | localAssignment =>
    obtain ⟨_, _, rfl, -, hall⟩ := conformsAll_cons hall
    obtain ⟨x, _, rfl, hx, hall⟩ := conformsAll_cons hall
    obtain ⟨y, _, rfl, hy, hall⟩ := conformsAll_cons hall
    obtain ⟨z, _, rfl, hz, hall⟩ := conformsAll_cons hall
    obtain ⟨_, _, rfl, -, hall⟩ := conformsAll_cons hall
    obtain ⟨w, _, rfl, hw, hall⟩ := conformsAll_cons hall
    obtain rfl := conformsAll_nil hall
    obtain ⟨ds, rfl, -⟩ := conforms_many hx
    obtain ⟨ds, rfl, -⟩ := conforms_list hy
    obtain ⟨ds, rfl, -⟩ := conforms_many hz
    obtain ⟨ds, rfl, -⟩ := conforms_list hw
    simp only [List.map_cons, List.map_nil, Connected, hollow_node (show Kind.vec ≠ .block by decide), hollow_node (show Kind.punct ≠ .block by decide), Node.children,
      List.map_eq_nil_iff, kindOf_hollow, List.length_map]
  | genericFor =>
    obtain ⟨_, _, rfl, -, hall⟩ := conformsAll_cons hall
    obtain ⟨x, _, rfl, hx, hall⟩ := conformsAll_cons hall
    obtain ⟨_, _, rfl, -, hall⟩ := conformsAll_cons hall
    obtain ⟨_, _, rfl, -, hall⟩ := conformsAll_cons hall
    obtain ⟨_, _, rfl, -, hall⟩ := conformsAll_cons hall
    obtain ⟨_, _, rfl, -, hall⟩ := conformsAll_cons hall
    obtain ⟨_, _, rfl, -, hall⟩ := conformsAll_cons hall
    obtain ⟨w, _, rfl, hw, hall⟩ := conformsAll_cons hall
    obtain rfl := conformsAll_nil hall
    obtain ⟨ds, rfl, -⟩ := conforms_list hx
    obtain ⟨ds, rfl, -⟩ := conforms_many hw
    simp only [List.map_cons, List.map_nil, Connected, hollow_node (show Kind.vec ≠ .block by decide), hollow_node (show Kind.punct ≠ .block by decide), Node.children,
      List.length_map]
  | funcBody =>
    obtain ⟨_, _, rfl, -, hall⟩ := conformsAll_cons hall
    obtain ⟨_, _, rfl, -, hall⟩ := conformsAll_cons hall
    obtain ⟨x, _, rfl, hx, hall⟩ := conformsAll_cons hall
    obtain ⟨w, _, rfl, hw, hall⟩ := conformsAll_cons hall
    obtain ⟨_, _, rfl, -, hall⟩ := conformsAll_cons hall
    obtain ⟨_, _, rfl, -, hall⟩ := conformsAll_cons hall
    obtain ⟨_, _, rfl, -, hall⟩ := conformsAll_cons hall
    obtain rfl := conformsAll_nil hall
    obtain ⟨ds, rfl, hp, -⟩ := conforms_list hx
    obtain ⟨es, rfl, -⟩ := conforms_many hw
    have h1 : (∀ p ∈ (ds.map hollow).dropLast, namedParam p = true) ↔ ∀ p ∈ ds.dropLast, namedParam p = true := by
      rw [← List.map_dropLast, List.forall_mem_map]
      exact forall_congr' fun p => imp_congr_right fun hp' => by rw [namedParam_hollow (pairs_kind hp ((List.dropLast_sublist _).mem hp'))]
    have h2 : ((ds.map hollow).filter namedParam).length = (ds.filter namedParam).length := by
      rw [List.filter_map, List.length_map]
      exact congrArg _ (List.filter_congr fun x hx => namedParam_hollow (pairs_kind hp hx))
    simp only [List.map_cons, List.map_nil, Connected, hollow_node (show Kind.vec ≠ .block by decide), hollow_node (show Kind.punct ≠ .block by decide), Node.children,
      List.length_map, h1, h2]
  | interpString =>
    obtain ⟨x, _, rfl, hx, hall⟩ := conformsAll_cons hall
    obtain ⟨z, _, rfl, hz, hall⟩ := conformsAll_cons hall
    obtain rfl := conformsAll_nil hall
    obtain ⟨ds, rfl, -⟩ := conforms_many hx
    simp only [List.map_cons, List.map_nil, Connected, hollow_node (show Kind.vec ≠ .block by decide), Node.children]
    cases ds with
    | nil => simp [section_hollow]
    | cons d ds => simp [section_hollow]
  | _ => exact Iff.rfl

theorem all_hollow {l : List Node} {P : Node → Prop} (h : ∀ m ∈ l, P (hollow m) ↔ P m) : (∀ m ∈ l.map hollow, P m) ↔ ∀ m ∈ l, P m := by
  rw [List.forall_mem_map]
  exact forall_congr' fun m => ⟨fun h1 h2 => (h m h2).1 (h1 h2), fun h1 h2 => (h m h2).2 (h1 h2)⟩

theorem init_hollow {l : List Node} {P : Node → Prop} (h : ∀ m ∈ l, P (hollow m) ↔ P m) :
    (∀ m ∈ (l.map hollow).dropLast, P m) ↔ ∀ m ∈ l.dropLast, P m := by
  rw [← List.map_dropLast]
  exact all_hollow fun m hm => h m ((List.dropLast_sublist _).mem hm)

theorem tail_hollow {l : List Node} {P : Node → Prop} (h : ∀ m ∈ l, P (hollow m) ↔ P m) :
    (∀ m ∈ (l.map hollow).tail, P m) ↔ ∀ m ∈ l.tail, P m := by
  rw [← List.map_tail]
  exact all_hollow fun m hm => h m (List.mem_of_mem_tail hm)

theorem some_hollow {o : Option Node} {P : Node → Prop} (h : ∀ m, o = some m → (P (hollow m) ↔ P m)) :
    (∀ m, o.map hollow = some m → P m) ↔ ∀ m, o = some m → P m := by
  cases o with
  | none => simp
  | some x => simpa using h x rfl

theorem final_hollow {l : List Node} {P : Node → Prop} (h : ∀ m ∈ l, P (hollow m) ↔ P m) :
    (∀ m, (l.map hollow).getLast? = some m → P m) ↔ ∀ m, l.getLast? = some m → P m := by
  rw [List.getLast?_map]
  exact some_hollow fun m hm => h m (List.mem_of_getLast? hm)

theorem specType_good {n t : Node} (h : specType n = some t) (hg : Good c n) : Good c t := by
  unfold specType at h
  split at h
  · cases h; exact (hg.child (List.mem_singleton.2 rfl)).child (by simp)
  · cases h

theorem spec_hollow {n : Node} {P : Node → Prop} (hg : Good c n) (h : ∀ t, Good c t → (P (hollow t) ↔ P t)) :
    (∀ t, specType (hollow n) = some t → P t) ↔ ∀ t, specType n = some t → P t := by
  rw [specType_hollow]
  exact some_hollow fun t ht => h t (specType_good ht hg)

theorem arg_hollow {n : Node} {P : Node → Bool → Prop} (hg : Good c n) (h : ∀ t b, Good c t → (P (hollow t) b ↔ P t b)) :
    (∀ t b, argType (hollow n) = some (t, b) → P t b) ↔ ∀ t b, argType n = some (t, b) → P t b := by
  rw [argType_hollow]
  cases e : argType n with
  | none => simp
  | some p =>
    have : Good c p.1 := by
      unfold argType at e
      split at e
      · cases e; exact hg.child (by simp)
      · cases e
    obtain ⟨t, b⟩ := p
    have := h t b this
    constructor
    · intro h1 t' b' e; cases e; exact this.1 (h1 _ _ rfl)
    · intro h1 t' b' e; cases e; exact this.2 (h1 _ _ rfl)

theorem genericParams_hollow {n : Node} (h : Conforms c (.opt (.cat .genericDecl)) n) : genericParams (hollow n) = (genericParams n).map hollow := by
  cases n with
  | tok t => simp [Conforms] at h
  | node k cs =>
    cases k <;> simp only [Conforms] at h
    · subst h; rfl
    · obtain ⟨x, _, rfl, hx, h⟩ := conformsAll_cons h
      obtain rfl := conformsAll_nil h
      obtain ⟨k, cs, rfl, h1, -, h3, -⟩ := conforms_cat hx
      cases k <;> cases h1
      obtain ⟨x, _, rfl, -, h3⟩ := conformsAll_cons h3
      obtain ⟨y, _, rfl, hy, h3⟩ := conformsAll_cons h3
      obtain rfl := conformsAll_nil h3
      simp only [hollow_node (show Kind.present ≠ .block by decide), hollow_node (show Kind.genericDecl ≠ .block by decide), List.map_cons, List.map_nil, genericParams]
      exact elements_hollow hy

theorem members_hollow {lead list : Node} {p : Part} {seps : List Symbol} {style : Style} (hl : Conforms c (.list p seps style) list) (hg : Good c list) :
    Members (hollow lead) (hollow list) ↔ Members lead list := by
  have hs : ∀ m ∈ elements list, single (hollow m) = true ↔ single m = true := fun m hm => by rw [single_hollow (list_good hg hm)]
  have h1 : (∀ m ∈ elements (hollow list), isOne [.tyUnion, .tyIntersection] m = false ∧ list? m = false) ↔
      ∀ m ∈ elements list, isOne [.tyUnion, .tyIntersection] m = false ∧ list? m = false := by
    rw [elements_hollow hl]
    exact all_hollow fun m hm => by rw [isOne_hollow, list?_hollow (list_good hg hm)]
  have h2 : (∀ m ∈ (elements (hollow list)).dropLast, openCallback m = false) ↔ ∀ m ∈ (elements list).dropLast, openCallback m = false := by
    rw [elements_hollow hl]
    exact init_hollow fun m hm => by rw [openCallback_hollow (list_good hg hm)]
  have h3 : (∀ m ∈ (elements (hollow list)).tail, single m = true) ↔ ∀ m ∈ (elements list).tail, single m = true := by
    rw [elements_hollow hl]
    exact tail_hollow hs
  have h4 : (∀ m ∈ elements (hollow list), single m = true) ↔ ∀ m ∈ elements list, single m = true := by
    rw [elements_hollow hl]
    exact all_hollow hs
  have h5 : (elements (hollow list)).length = (elements list).length := by rw [elements_hollow hl, List.length_map]
  constructor
  · intro h
    exact ⟨h1.1 h.plain, h2.1 h.closed, h3.1 h.rest, fun e => h4.1 (h.first (by rwa [isOne_hollow])), fun e => h5 ▸ h.two (by rwa [isOne_hollow])⟩
  · intro h
    exact ⟨h1.2 h.plain, h2.2 h.closed, h3.2 h.rest, fun e => h4.2 (h.first (by rwa [isOne_hollow] at e)), fun e => h5 ▸ h.two (by rwa [isOne_hollow] at e)⟩

theorem leds_hollow {list : Node} {p : Part} {seps : List Symbol} {style : Style} (hl : Conforms c (.list p seps style) list) :
    (∀ m ∈ elements (hollow list), led m = false) ↔ ∀ m ∈ elements list, led m = false := by
  rw [elements_hollow hl]
  exact all_hollow fun m _ => by rw [led_hollow]

theorem zip_hollow {l r : List Node} {P : Node × Node → Prop} (h : ∀ p ∈ l.zip r, P (hollow p.1, hollow p.2) ↔ P p) :
    (∀ p ∈ (l.map hollow).zip (r.map hollow), P p) ↔ ∀ p ∈ l.zip r, P p := by
  rw [List.zip_map, List.forall_mem_map]
  exact forall_congr' fun m => ⟨fun h1 h2 => (h m h2).1 (h1 h2), fun h1 h2 => (h m h2).2 (h1 h2)⟩

theorem singles_hollow {types : Node} {p : Part} (h : Conforms c (.many p) types) (hg : Good c types) : singles (hollow types) ↔ singles types := by
  obtain ⟨ds, rfl, -⟩ := conforms_many h
  unfold singles
  rw [children_hollow (by simp [kindOf])]
  exact all_hollow fun m hm => spec_hollow (hg.child hm) fun t ht => by rw [single_hollow ht]

theorem lastType_good (n : Node) {t : Node} (h : lastType n = some t) (hg : Good c n) : Good c t := by
  fun_induction lastType n with
  | case1 a b t' => cases h; exact (hg.child (x := .node .typeAssertion [b, t]) (by simp)).child (by simp)
  | case2 a b r ih => exact ih h (hg.child (by simp))
  | case3 a e ih => exact ih h (hg.child (by simp))
  | case4 a b d e f g r ih => exact ih h ((hg.child (List.mem_singleton.2 rfl)).child (by simp))
  | case5 => cases h

theorem chosen_hollow {k : Kind} {cs : List Node} (hall : ConformsAll c (production c.feat k) cs) (hg : ∀ x ∈ cs, Good c x) :
    Chosen k (cs.map hollow) ↔ Chosen k cs := by
  cases k with
  | tyOptional =>
    match cs, all_shape hall with
    | [t, _], _ =>
      simp only [List.map_cons, List.map_nil, Chosen, isOne_hollow, openCallback_hollow (hg t (by simp)), list?_hollow (hg t (by simp))]
  | typeUnion =>
    obtain ⟨x, _, rfl, hx, hall⟩ := conformsAll_cons hall
    obtain ⟨y, _, rfl, hy, hall⟩ := conformsAll_cons hall
    obtain rfl := conformsAll_nil hall
    exact members_hollow hy (hg y (by simp))
  | typeIntersection =>
    obtain ⟨x, _, rfl, hx, hall⟩ := conformsAll_cons hall
    obtain ⟨y, _, rfl, hy, hall⟩ := conformsAll_cons hall
    obtain rfl := conformsAll_nil hall
    refine and_congr (members_hollow hy (hg y (by simp))) ?_
    rw [elements_hollow hy]
    exact all_hollow fun m _ => by rw [isOne_hollow]
  | tyBasic =>
    obtain ⟨x, _, rfl, hx, hall⟩ := conformsAll_cons hall
    obtain rfl := conformsAll_nil hall
    simp only [List.map_cons, List.map_nil, Chosen, startsTok_hollow hx rfl]
  | tyModule =>
    obtain ⟨x, _, rfl, hx, hall⟩ := conformsAll_cons hall
    obtain ⟨_, _, rfl, -, hall⟩ := conformsAll_cons hall
    obtain ⟨_, _, rfl, -, hall⟩ := conformsAll_cons hall
    obtain rfl := conformsAll_nil hall
    simp only [List.map_cons, List.map_nil, Chosen, startsTok_hollow hx rfl]
  | tyGeneric =>
    obtain ⟨x, _, rfl, hx, hall⟩ := conformsAll_cons hall
    obtain ⟨_, _, rfl, -, hall⟩ := conformsAll_cons hall
    obtain ⟨y, _, rfl, hy, hall⟩ := conformsAll_cons hall
    obtain rfl := conformsAll_nil hall
    simp only [List.map_cons, List.map_nil, Chosen, startsTok_hollow hx rfl, leds_hollow hy]
  | idxGeneric =>
    obtain ⟨x, _, rfl, hx, hall⟩ := conformsAll_cons hall
    obtain ⟨_, _, rfl, -, hall⟩ := conformsAll_cons hall
    obtain ⟨y, _, rfl, hy, hall⟩ := conformsAll_cons hall
    obtain rfl := conformsAll_nil hall
    exact leds_hollow hy
  | typeInst =>
    obtain ⟨x, _, rfl, hx, hall⟩ := conformsAll_cons hall
    obtain ⟨_, _, rfl, -, hall⟩ := conformsAll_cons hall
    obtain ⟨y, _, rfl, hy, hall⟩ := conformsAll_cons hall
    obtain rfl := conformsAll_nil hall
    exact leds_hollow hy
  | tyTuple =>
    obtain ⟨x, _, rfl, hx, hall⟩ := conformsAll_cons hall
    obtain ⟨y, _, rfl, hy, hall⟩ := conformsAll_cons hall
    obtain rfl := conformsAll_nil hall
    have hs : ∀ m ∈ elements y, single (hollow m) = true ↔ single m = true := fun m hm => by rw [single_hollow (list_good (hg y (by simp)) hm)]
    show _ ∧ _ ↔ _ ∧ _
    rw [elements_hollow hy]
    exact and_congr (init_hollow hs) (final_hollow (P := fun m => single m = true ∨ variadic m = true) fun m hm => by rw [hs m hm, variadic_hollow])
  | tyCallback =>
    obtain ⟨x, _, rfl, hx, hall⟩ := conformsAll_cons hall
    obtain ⟨_, _, rfl, -, hall⟩ := conformsAll_cons hall
    obtain ⟨y, _, rfl, hy, hall⟩ := conformsAll_cons hall
    obtain ⟨_, _, rfl, -, hall⟩ := conformsAll_cons hall
    obtain ⟨z, _, rfl, hz, hall⟩ := conformsAll_cons hall
    obtain rfl := conformsAll_nil hall
    have hy' := hg y (by simp)
    show _ ∧ _ ∧ _ ∧ _ ↔ _ ∧ _ ∧ _ ∧ _
    rw [genericParams_hollow hx, led_hollow, elements_hollow hy]
    refine and_congr (all_hollow fun m _ => by rw [hasDefault_hollow]) (and_congr Iff.rfl (and_congr ?_ ?_))
    · exact init_hollow fun m hm => arg_hollow (P := fun t _ => single t = true) (list_good hy' hm) fun t _ ht => by rw [single_hollow ht]
    · exact final_hollow (P := fun m => ∀ t b, argType m = some (t, b) → single t = true ∨ b = true ∧ variadic t = true)
        fun m hm => arg_hollow (P := fun t b => single t = true ∨ b = true ∧ variadic t = true) (list_good hy' hm) fun t _ ht => by
          rw [single_hollow ht, variadic_hollow]
  | tyVariadic =>
    match cs, all_shape hall with
    | [_, t], _ => simp only [List.map_cons, List.map_nil, Chosen, single_hollow (hg t (by simp))]
  | tyArray =>
    obtain ⟨x, _, rfl, hx, hall⟩ := conformsAll_cons hall
    obtain ⟨_, _, rfl, -, hall⟩ := conformsAll_cons hall
    obtain ⟨y, _, rfl, hy, hall⟩ := conformsAll_cons hall
    obtain rfl := conformsAll_nil hall
    simp only [List.map_cons, List.map_nil, Chosen, single_hollow (hg y (by simp)), isOne_hollow, startsTok_hollow hy rfl]
  | tyTable =>
    obtain ⟨x, _, rfl, hx, hall⟩ := conformsAll_cons hall
    obtain ⟨y, _, rfl, hy, hall⟩ := conformsAll_cons hall
    obtain rfl := conformsAll_nil hall
    show _ ≤ _ ↔ _ ≤ _
    rw [elements_hollow hy, List.filter_map, List.length_map, List.filter_congr (p := indexer ∘ hollow) (q := indexer) fun m _ => indexer_hollow m]
  | typeField =>
    match cs, all_shape hall with
    | [_, _, _, t], _ => simp only [List.map_cons, List.map_nil, Chosen, single_hollow (hg t (by simp))]
  | keyIndex =>
    obtain ⟨x, _, rfl, hx, hall⟩ := conformsAll_cons hall
    obtain ⟨y, _, rfl, hy, hall⟩ := conformsAll_cons hall
    obtain rfl := conformsAll_nil hall
    simp only [List.map_cons, List.map_nil, Chosen, single_hollow (hg y (by simp)), isOne_hollow, startsTok_hollow hy rfl]
  | typeAssertion =>
    match cs, all_shape hall with
    | [_, t], _ => simp only [List.map_cons, List.map_nil, Chosen, single_hollow (hg t (by simp))]
  | typeDecl =>
    match cs, all_shape hall with
    | [_, _, _, _, t], _ => simp only [List.map_cons, List.map_nil, Chosen, single_hollow (hg t (by simp))]
  | genericDecl =>
    obtain ⟨x, _, rfl, hx, hall⟩ := conformsAll_cons hall
    obtain ⟨y, _, rfl, hy, hall⟩ := conformsAll_cons hall
    obtain rfl := conformsAll_nil hall
    simp only [List.map_cons, List.map_nil, Chosen, elements_hollow hy, List.pairwise_map, packParam_hollow, hasDefault_hollow]
  | genericDeclParam =>
    obtain ⟨x, _, rfl, hx, hall⟩ := conformsAll_cons hall
    obtain ⟨y, _, rfl, hy, hall⟩ := conformsAll_cons hall
    obtain rfl := conformsAll_nil hall
    cases y with
    | tok t => exact Iff.rfl
    | node k cs =>
      have hy' := hg (.node k cs) (by simp)
      cases k <;> simp only [Conforms] at hy
      · exact Iff.rfl
      · obtain ⟨z, _, rfl, hz, hy⟩ := conformsAll_cons hy
        obtain rfl := conformsAll_nil hy
        cases z with
        | tok t => simp [Conforms] at hz
        | node k cs =>
          cases k <;> simp only [Conforms] at hz
          obtain ⟨z, _, rfl, -, hz⟩ := conformsAll_cons hz
          obtain ⟨w, _, rfl, -, hz⟩ := conformsAll_cons hz
          obtain rfl := conformsAll_nil hz
          have hw : Good c w := (hy'.child (List.mem_singleton.2 rfl)).child (by simp)
          simp only [List.map_cons, List.map_nil, hollow_node (show Kind.present ≠ .block by decide), hollow_node (show Kind.tuple ≠ .block by decide), Chosen,
            single_hollow hw, isOne_hollow]
  | funcBody =>
    obtain ⟨x, _, rfl, hx, hall⟩ := conformsAll_cons hall
    obtain ⟨_, _, rfl, -, hall⟩ := conformsAll_cons hall
    obtain ⟨y, _, rfl, hy, hall⟩ := conformsAll_cons hall
    obtain ⟨z, _, rfl, hz, hall⟩ := conformsAll_cons hall
    obtain ⟨w, _, rfl, -, hall⟩ := conformsAll_cons hall
    obtain ⟨_, _, rfl, -, hall⟩ := conformsAll_cons hall
    obtain ⟨_, _, rfl, -, hall⟩ := conformsAll_cons hall
    obtain rfl := conformsAll_nil hall
    obtain ⟨ds, rfl, hp, -⟩ := conforms_list hy
    obtain ⟨es, rfl, -⟩ := conforms_many hz
    have hz' := hg (.node .vec es) (by simp)
    show _ ∧ _ ∧ _ ↔ _ ∧ _ ∧ _
    rw [genericParams_hollow hx, children_hollow (by simp [kindOf]), children_hollow (by simp [kindOf])]
    refine and_congr (all_hollow fun m _ => by rw [hasDefault_hollow]) (and_congr ?_ (spec_hollow (hg w (by simp)) fun t _ => by rw [led_hollow]))
    refine zip_hollow (P := fun p => ∀ t, specType p.2 = some t → single t = true ∨ namedParam p.1 = false ∧ isOne [.tyGenericPack] t = true) fun p hp' => ?_
    have h1 := List.of_mem_zip (a := p.1) (b := p.2) hp'
    show (∀ t, specType (hollow p.2) = some t → single t = true ∨ namedParam (hollow p.1) = false ∧ isOne [.tyGenericPack] t = true) ↔ _
    rw [namedParam_hollow (pairs_kind hp h1.1)]
    exact spec_hollow (P := fun t => single t = true ∨ namedParam p.1 = false ∧ isOne [.tyGenericPack] t = true) (hz'.child h1.2) fun t ht => by
      rw [single_hollow ht, isOne_hollow]
  | localAssignment =>
    obtain ⟨_, _, rfl, -, hall⟩ := conformsAll_cons hall
    obtain ⟨x, _, rfl, hx, hall⟩ := conformsAll_cons hall
    obtain ⟨y, _, rfl, hy, hall⟩ := conformsAll_cons hall
    obtain ⟨z, _, rfl, hz, hall⟩ := conformsAll_cons hall
    obtain ⟨_, _, rfl, -, hall⟩ := conformsAll_cons hall
    obtain ⟨w, _, rfl, hw, hall⟩ := conformsAll_cons hall
    obtain rfl := conformsAll_nil hall
    refine and_congr (singles_hollow hx (hg x (by simp))) ?_
    obtain ⟨ds, rfl, -⟩ := conforms_many hx
    obtain ⟨es, rfl, -⟩ := conforms_many hz
    rw [children_hollow (by simp [kindOf]), children_hollow (by simp [kindOf])]
    exact zip_hollow (P := fun p => isOne [.absent] p.1 = true ∨ isOne [.absent] p.2 = true) fun p _ => by
      show isOne _ (hollow p.1) = true ∨ isOne _ (hollow p.2) = true ↔ _
      rw [isOne_hollow, isOne_hollow]
  | genericFor =>
    obtain ⟨_, _, rfl, -, hall⟩ := conformsAll_cons hall
    obtain ⟨_, _, rfl, -, hall⟩ := conformsAll_cons hall
    obtain ⟨_, _, rfl, -, hall⟩ := conformsAll_cons hall
    obtain ⟨_, _, rfl, -, hall⟩ := conformsAll_cons hall
    obtain ⟨_, _, rfl, -, hall⟩ := conformsAll_cons hall
    obtain ⟨_, _, rfl, -, hall⟩ := conformsAll_cons hall
    obtain ⟨_, _, rfl, -, hall⟩ := conformsAll_cons hall
    obtain ⟨x, _, rfl, hx, hall⟩ := conformsAll_cons hall
    obtain rfl := conformsAll_nil hall
    exact singles_hollow hx (hg x (by simp))
  | numericFor =>
    match cs, all_shape hall with
    | [_, _, _, _, _, _, _, _, _, _, _, t], _ => exact spec_hollow (hg t (by simp)) fun t ht => by rw [single_hollow ht]
  | exprAssertion =>
    match cs, all_shape hall with
    | [_, _], _ => simp only [List.map_cons, List.map_nil, Chosen, isOne_hollow, innerAsserts_hollow]
  | exprBinary =>
    obtain ⟨x, _, rfl, hx, hall⟩ := conformsAll_cons hall
    obtain ⟨y, _, rfl, hy, hall⟩ := conformsAll_cons hall
    obtain ⟨z, _, rfl, hz, hall⟩ := conformsAll_cons hall
    obtain rfl := conformsAll_nil hall
    show (∀ t, lastType (hollow x) = some t → opText (hollow y) ≠ _ ∧ opText (hollow y) ≠ _ ∧ (opText (hollow y) = _ → endsName t = false)) ↔ _
    rw [lastType_hollow, binOp_hollow hy]
    exact some_hollow (P := fun t => opText y ≠ c!"|" ∧ opText y ≠ c!"&" ∧ (opText y = c!"<" → endsName t = false)) fun t ht => by
      rw [endsName_hollow _ t (Nat.lt_succ_self _) (lastType_good x ht (hg x (by simp)))]
  | interpSegment =>
    obtain ⟨x, _, rfl, hx, hall⟩ := conformsAll_cons hall
    obtain ⟨y, _, rfl, hy, hall⟩ := conformsAll_cons hall
    obtain rfl := conformsAll_nil hall
    obtain ⟨u, rfl⟩ := conforms_token hx
    simp only [List.map_cons, List.map_nil, hollow_tok, Chosen, startsTok_hollow hy rfl]
  | block =>
    obtain ⟨x, _, rfl, hx, hall⟩ := conformsAll_cons hall
    obtain ⟨y, _, rfl, hy, hall⟩ := conformsAll_cons hall
    obtain rfl := conformsAll_nil hall
    obtain ⟨ds, rfl, hx⟩ := conforms_many hx
    simp only [List.map_cons, List.map_nil, hollow_node (show Kind.vec ≠ .block by decide)]
    exact unasserteds_hollow hx
  | _ => exact Iff.rfl

/-! ## Exchanging a block -/

theorem Exchanged.same {b b' n n' : Node} (hb : kindOf b = some .block) (hb' : kindOf b' = some .block) (h : Exchanged b b' n n') : hollow n' = hollow n := by
  induction h with
  | here =>
    obtain ⟨cs, rfl⟩ := kindOf_block hb
    obtain ⟨cs', rfl⟩ := kindOf_block hb'
    rw [hollow_block, hollow_block]
  | @inside k before after m m' _ ih =>
    by_cases hk : k = .block
    · subst hk; rw [hollow_block, hollow_block]
    · rw [hollow_node hk, hollow_node hk]
      simp [ih]

theorem exchanged_all {m m' : Node} {before after : List Node} (h : ∀ p, Conforms c p m → Conforms c p m') :
    ∀ {ps : List Part}, ConformsAll c ps (before ++ m :: after) → ConformsAll c ps (before ++ m' :: after) := by
  induction before with
  | nil =>
    intro ps h1
    cases ps with
    | nil => simp [ConformsAll] at h1
    | cons p ps => simp only [List.nil_append, ConformsAll] at h1 ⊢; exact ⟨h p h1.1, h1.2⟩
  | cons x before ih =>
    intro ps h1
    cases ps with
    | nil => simp [ConformsAll] at h1
    | cons p ps => simp only [List.cons_append, ConformsAll] at h1 ⊢; exact ⟨h1.1, ih h1.2⟩

theorem exchanged_each {m m' : Node} {before after : List Node} {p : Part} (h : Conforms c p m → Conforms c p m') :
    ConformsEach c p (before ++ m :: after) → ConformsEach c p (before ++ m' :: after) := by
  induction before with
  | nil => simp only [List.nil_append, ConformsEach]; exact fun h1 => ⟨h h1.1, h1.2⟩
  | cons x before ih => simp only [List.cons_append, ConformsEach]; exact fun h1 => ⟨h1.1, ih h1.2⟩

theorem pairs_append {p : Part} {seps : List Symbol} {ds es : List Node} :
    ConformsPairs c p seps (ds ++ es) ↔ ConformsPairs c p seps ds ∧ ConformsPairs c p seps es := by
  induction ds with
  | nil => simp [ConformsPairs]
  | cons x ds ih =>
    cases x with
    | tok t => simp [ConformsPairs]
    | node k cs => cases k <;> simp [ConformsPairs, ih, and_assoc]

theorem exchanged_pairs {m m' : Node} {before after : List Node} {p : Part} {seps : List Symbol}
    (h : ConformsPairs c p seps [m] → ConformsPairs c p seps [m']) :
    ConformsPairs c p seps (before ++ m :: after) → ConformsPairs c p seps (before ++ m' :: after) := by
  rw [pairs_append, pairs_append, ← List.singleton_append, pairs_append, ← List.singleton_append (x := m'), pairs_append]
  exact fun h1 => ⟨h1.1, h h1.2.1, h1.2.2⟩

/-- The nodes have the same kinds. -/
theorem separated_kinds {style : Style} {ds ds' : List Node} (h : ds'.map kindOf = ds.map kindOf) : Separated style ds → Separated style ds' := by
  have h1 : ∀ {l : List Node} {k : Kind}, (∀ p ∈ l, kindOf p = some k) ↔ ∀ o ∈ l.map kindOf, o = some k := by
    intro l k; rw [List.forall_mem_map]
  have h2 : ∀ {l : List Node} {k : Kind}, (∀ p, l.getLast? = some p → kindOf p = some k) ↔ ∀ o, (l.map kindOf).getLast? = some o → o = some k := by
    intro l k
    rw [List.getLast?_map]
    cases l.getLast? <;> simp
  have h3 : ∀ {l : List Node}, l ≠ [] ↔ l.map kindOf ≠ [] := by intro l; simp
  unfold Separated
  rw [h1, h1, h2, h2, h3, h3 (l := ds'), List.map_dropLast, List.map_dropLast, h]
  exact id

theorem Exchanged.conforms {b b' n n' : Node} (hb : kindOf b = some .block) (hb' : Conforms c .block b') (h : Exchanged b b' n n') :
    (∀ p, Conforms c p n → Conforms c p n') ∧ ∀ p seps, ConformsPairs c p seps [n] → ConformsPairs c p seps [n'] := by
  have hk' : kindOf b' = some .block := by
    obtain ⟨k, cs, rfl, h1, -⟩ := conforms_cat hb'
    cases k <;> cases h1
    rfl
  induction h with
  | here =>
    obtain ⟨cs, rfl⟩ := kindOf_block hb
    refine ⟨fun p h => ?_, fun p seps h => by simp [ConformsPairs] at h⟩
    cases p with
    | cat a => rw [Conforms] at h; cases h.1; exact hb'
    | type => rw [Conforms] at h; cases h.1
    | _ => simp [Conforms] at h
  | @inside k before after m m' hm ih =>
    have hh : (before ++ m' :: after).map hollow = (before ++ m :: after).map hollow := by simp [hm.same hb hk']
    have all := fun ps => exchanged_all (before := before) (after := after) (ps := ps) ih.1
    have conn : ConformsAll c (production c.feat k) (before ++ m :: after) → Connected c k (before ++ m :: after) → Connected c k (before ++ m' :: after) :=
      fun h1 h2 => (connected_hollow (all _ h1)).1 (hh ▸ (connected_hollow h1).2 h2)
    refine ⟨fun p h => ?_, fun p seps h => ?_⟩
    · cases p with
      | tok x => simp [Conforms] at h
      | cat a => rw [Conforms] at h; rw [Conforms]; exact ⟨h.1, h.2.1, all _ h.2.2.1, conn h.2.2.1 h.2.2.2⟩
      | type => rw [Conforms] at h; rw [Conforms]; exact ⟨h.1, h.2.1, h.2.2.1, all _ h.2.2.2.1, conn h.2.2.2.1 h.2.2.2.2⟩
      | span o e => cases k <;> simp only [Conforms] at h ⊢; exact all _ h
      | opt p =>
        cases k <;> simp only [Conforms] at h ⊢
        · simp at h
        · exact all _ h
      | many p => cases k <;> simp only [Conforms] at h ⊢; exact exchanged_each (ih.1 p) h
      | some p => cases k <;> simp only [Conforms] at h ⊢; exact ⟨exchanged_each (ih.1 p) h.1, by simp⟩
      | list p seps style =>
        cases k <;> simp only [Conforms] at h ⊢
        refine ⟨exchanged_pairs (ih.2 p seps) h.1, separated_kinds ?_ h.2⟩
        have := congrArg (List.map kindOf) hh
        simpa [kindOf_hollow] using this
      | pair p q => cases k <;> simp only [Conforms] at h ⊢; exact all _ h
    · cases k <;> simp only [ConformsPairs, and_true] at h ⊢ <;> exact all _ h

theorem Exchanged.chosen {b b' n n' : Node} (hb : kindOf b = some .block) (hb' : Conforms c .block b') (hc : b'.Every Chosen) (h : Exchanged b b' n n')
    (hg : Good c n) (hg' : Good c n') (hn : n.Every Chosen) : n'.Every Chosen := by
  have hk' : kindOf b' = some .block := by
    obtain ⟨k, cs, rfl, h1, -⟩ := conforms_cat hb'
    cases k <;> cases h1
    rfl
  induction h with
  | here => exact hc
  | @inside k before after m m' hm ih =>
    have hh : (before ++ m' :: after).map hollow = (before ++ m :: after).map hollow := by simp [hm.same hb hk']
    rw [Clean.every_node] at hn ⊢
    refine ⟨?_, fun x hx => ?_⟩
    · by_cases hk : k.cat = none
      · have : ∀ cs, Chosen k cs := by
          intro cs
          cases k <;> first | (cases hk; done) | (unfold Chosen; trivial)
        exact this _
      · exact (chosen_hollow (hg'.parts hk) fun x hx => hg'.child hx).1 (hh ▸ (chosen_hollow (hg.parts hk) fun x hx => hg.child hx).2 hn.1)
    · rcases List.mem_append.1 hx with hx | hx
      · exact hn.2 x (by simp [hx])
      · rcases List.mem_cons.1 hx with rfl | hx
        · exact ih (hg.child (by simp)) (hg'.child (by simp)) (hn.2 m (by simp))
        · exact hn.2 x (by simp [hx])

end FM.Spec
