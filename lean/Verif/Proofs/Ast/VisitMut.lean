import Verif.Proofs.Ast.View

/-!
# Mutable visitors: tokens are visited once each, in print order
-/

namespace FM
open Spec

variable {R₀ : TokRef → Prop} {σ : Type}

/-! ## Running the state monad -/

@[simp] theorem run_bind {α β : Type} (m : StateM σ α) (g : α → StateM σ β) (s : σ) :
    (m >>= g) s = g (m s).1 (m s).2 := rfl
@[simp] theorem run_pure {α : Type} (a : α) (s : σ) : (pure a : StateM σ α) s = (a, s) := rfl

@[simp] theorem run_map {α β : Type} (h : α → β) (m : StateM σ α) (s : σ) :
    (h <$> m) s = (h (m s).1, (m s).2) := rfl

/-! ## Equations of `visitMut` -/

def Vm.of (g : Node → StateM σ Node) (n : Node) : Vm σ :=
  ⟨g n, n.children.map g, n.children.map fun c => c.children.map g⟩

section
variable (f : Features) (w : MutVisitor σ)

theorem Node.visitVms_eq (cs : List Node) : Node.visitVms f w cs = cs.map (Node.visitVm f w) := by
  induction cs with
  | nil => rfl
  | cons c cs ih => simp [Node.visitVms, ih]

theorem Node.visitVm_eq (n : Node) : n.visitVm f w = Vm.of (Node.visitMutWith f w) n := by
  cases n with
  | tok t => rfl
  | node k cs =>
    simp only [Node.visitVm, Vm.of, Node.visitVms_eq, Node.children_node, List.map_map, Node.visitMutWith]
    congr 1
    apply List.map_congr_left
    intro c _
    cases c with
    | tok t => rfl
    | node k cs => simp [Node.visitVm, Node.visitVms_eq, Node.visitMutWith]

theorem Node.visitMutWith_node (k : Kind) (cs : List Node) :
    (Node.node k cs).visitMutWith f w =
      w.around k (.node k cs) (rebuildNode f k (cs.map (Vm.of (Node.visitMutWith f w)))) := by
  simp only [Node.visitMutWith, Node.visitVm, Node.visitVms_eq]
  congr 2
  apply List.map_congr_left
  intro c _
  exact Node.visitVm_eq f w c

@[simp] theorem Node.visitMutWith_tok (t : TokRef) (s : σ) :
    (Node.tok t).visitMutWith f w s = (.tok (t.visitMut w.toTokenVisitor s).1, (t.visitMut w.toTokenVisitor s).2) := rfl

end

section
variable (f : Features) (v : TokenVisitor σ)

theorem Node.visitMut_node (k : Kind) (cs : List Node) :
    (Node.node k cs).visitMut f v = rebuildNode f k (cs.map (Vm.of (Node.visitMut f v))) := by
  rw [Node.visitMut, Node.visitMutWith_node, MutVisitor.around]
  cases k.hook with
  | none => rfl
  | some h => rfl

@[simp] theorem Node.visitMut_tok (t : TokRef) (s : σ) :
    (Node.tok t).visitMut f v s = (.tok (t.visitMut v s).1, (t.visitMut v s).2) := rfl

theorem goAll_of (cs : List Node) :
    goAll (cs.map (Vm.of (Node.visitMut f v))) = goAll (cs.map fun c => ⟨c.visitMut f v, [], []⟩) := by
  induction cs with
  | nil => rfl
  | cons c cs ih => simp only [List.map_cons, goAll, ih]; rfl

end

/-- Visit token references one after the other. -/
def visitRefs (v : TokenVisitor σ) : List TokRef → StateM σ (List TokRef)
  | [] => pure []
  | t :: ts => do
    let t ← t.visitMut v
    let ts ← visitRefs v ts
    pure (t :: ts)

theorem visitRefs_append (v : TokenVisitor σ) (ts us : List TokRef) (s : σ) :
    visitRefs v (ts ++ us) s = ((visitRefs v ts s).1 ++ (visitRefs v us (visitRefs v ts s).2).1,
      (visitRefs v us (visitRefs v ts s).2).2) := by
  induction ts generalizing s with
  | nil => rfl
  | cons t ts ih => simp [visitRefs, ih]

@[simp] theorem visitRefs_nil (v : TokenVisitor σ) (s : σ) : visitRefs v [] s = ([], s) := rfl
@[simp] theorem visitRefs_cons (v : TokenVisitor σ) (t : TokRef) (ts : List TokRef) (s : σ) :
    visitRefs v (t :: ts) s = ((t.visitMut v s).1 :: (visitRefs v ts (t.visitMut v s).2).1,
      (visitRefs v ts (t.visitMut v s).2).2) := rfl

/-- `g` visits the tokens of `n` in print order. -/
def InOrder (v : TokenVisitor σ) (g : Node → StateM σ Node) (n : Node) : Prop :=
  ∀ s, visitRefs v n.flat s = ((g n s).1.flat, (g n s).2)

theorem goAll_inOrder (v : TokenVisitor σ) (g : Node → StateM σ Node) :
    ∀ (cs : List Node), (∀ c ∈ cs, InOrder v g c) → ∀ s,
      visitRefs v (cs.flatMap Node.flat) s =
        ((goAll (cs.map (Vm.of g)) s).1.flatMap Node.flat, (goAll (cs.map (Vm.of g)) s).2)
  | [], _, s => rfl
  | c :: cs, h, s => by
    have h1 := h c List.mem_cons_self
    have ih := goAll_inOrder v g cs (fun d hd => h d (List.mem_cons_of_mem _ hd))
    rw [InOrder] at h1
    simp [goAll, Vm.of, visitRefs_append, h1] at ih ⊢
    simp [ih]

@[simp] theorem flat_none : Node.none.flat = [] := by rw [Node.none, Node.flat_plain rfl]; rfl

theorem action_inOrder {v : TokenVisitor σ} {g : Node → StateM σ Node} {as : List Node}
    (h : ∀ a ∈ as, InOrder v g a) (s : σ) :
    visitRefs v (part (as.map Node.flat) 0) s =
      ((action (as.map g) 0 s).1.flat, (action (as.map g) 0 s).2) := by
  cases as with
  | nil => simp [action, part]
  | cons a as => simpa [action, part] using h a List.mem_cons_self s

theorem flatNames_cons (p : Node) (ps as bs : List Node) : flatNames (p :: ps) as bs =
    part (p.children.map Node.flat) 0 ++ (part (as.map Node.flat) 0 ++ (part (bs.map Node.flat) 0 ++
      (part (p.children.map Node.flat) 1 ++ flatNames ps as.tail bs.tail))) := by
  simp [flatNames, joinNames, List.map_tail]

theorem rebuildNames_inOrder {v : TokenVisitor σ} {g : Node → StateM σ Node} {a : Ty} :
    ∀ (ps as bs : List Node), (∀ p ∈ ps, HasTy R₀ (.pair a) p) → (∀ p ∈ ps, ∀ c ∈ p.children, InOrder v g c) →
      (∀ a ∈ as, InOrder v g a) → (∀ b ∈ bs, InOrder v g b) → ∀ s,
      visitRefs v (flatNames ps as bs) s =
        (let r := rebuildNames (ps.map fun p => p.children.map g) (as.map g) (bs.map g) s
         (flatNames r.1.1 r.1.2.1 r.1.2.2, r.2))
  | [], as, bs, _, _, _, _, s => by simp [rebuildNames, flatNames, joinNames]
  | p :: ps, as, bs, hp, hc, ha, hb, s => by
    have tl : ∀ {l : List Node} {P : Node → Prop}, (∀ a ∈ l, P a) → ∀ a ∈ l.tail, P a :=
      fun h a hm => h a (List.mem_of_mem_tail hm)
    have ih := rebuildNames_inOrder (v := v) (g := g) ps as.tail bs.tail
      (fun q hq => hp q (List.mem_cons_of_mem _ hq)) (fun q hq => hc q (List.mem_cons_of_mem _ hq)) (tl ha) (tl hb)
    have hcp := hc p List.mem_cons_self
    have hpp := hp p List.mem_cons_self
    have mt : ∀ l : List Node, (l.map g).tail = l.tail.map g := fun l => by cases l <;> rfl
    rcases hasTy_pair.1 hpp with ⟨x, _, rfl⟩ | ⟨x, t, _, _, rfl⟩
    · have hx := hcp x (by simp)
      rw [InOrder] at hx
      simp only [flatNames_cons, visitRefs_append, part, hx, action_inOrder ha, action_inOrder hb, ih, rebuildNames,
        action, mt, Node.children_node, List.map_cons, List.map_nil, run_bind, run_pure, List.tail_cons,
        List.nil_append]
    · have hx := hcp x (by simp)
      have ht := hcp (.tok t) (by simp)
      rw [InOrder] at hx ht
      rw [Node.flat_tok] at ht
      simp only [flatNames_cons, visitRefs_append, part, hx, ht, action_inOrder ha, action_inOrder hb, ih, rebuildNames,
        action, mt, Node.children_node, List.map_cons, List.map_nil, Node.flat_tok, run_bind, run_pure, List.tail_cons]

/-- Annotations that were absent stay absent. -/
theorem rebuildNames_none (ps as bs : List Node) (g : Node → StateM σ Node) (s : σ) :
    let r := rebuildNames (ps.map fun p => p.children.map g) (as.map g) (bs.map g) s
    (as = [] → ∀ n ∈ r.1.2.1, n = .none) ∧ (bs = [] → ∀ n ∈ r.1.2.2, n = .none) := by
  induction ps generalizing as bs s with
  | nil => simp [rebuildNames]
  | cons p ps ih =>
    have mt : ∀ l : List Node, (l.map g).tail = l.tail.map g := fun l => by cases l <;> rfl
    simp only [List.map_cons, rebuildNames, run_bind, mt]
    rcases p.children with _ | ⟨x, _ | ⟨y, l⟩⟩ <;> simp only [run_bind, run_pure, List.map_cons, List.map_nil] <;>
      refine ⟨?_, ?_⟩
    · rintro rfl n hn
      rcases List.mem_cons.1 hn with rfl | hn
      · rfl
      · exact (ih _ _ _).1 rfl n hn
    · rintro rfl n hn
      rcases List.mem_cons.1 hn with rfl | hn
      · rfl
      · exact (ih _ _ _).2 rfl n hn
    · rintro rfl n hn
      rcases List.mem_cons.1 hn with rfl | hn
      · rfl
      · exact (ih _ _ _).1 rfl n hn
    · rintro rfl n hn
      rcases List.mem_cons.1 hn with rfl | hn
      · rfl
      · exact (ih _ _ _).2 rfl n hn
    · rintro rfl n hn
      rcases List.mem_cons.1 hn with rfl | hn
      · rfl
      · exact (ih _ _ _).1 rfl n hn
    · rintro rfl n hn
      rcases List.mem_cons.1 hn with rfl | hn
      · rfl
      · exact (ih _ _ _).2 rfl n hn

theorem flatNames_none_first (ps as bs : List Node) (h : ∀ n ∈ as, n = .none) :
    flatNames ps as bs = flatNames ps [] bs := by
  induction ps generalizing as bs with
  | nil => rfl
  | cons p ps ih =>
    cases as with
    | nil => rfl
    | cons a as =>
      have := h a List.mem_cons_self
      subst this
      simp [flatNames_cons, part, ih as bs.tail fun n hn => h n (List.mem_cons_of_mem _ hn)]

theorem flatNames_none_second (ps as bs : List Node) (h : ∀ n ∈ bs, n = .none) :
    flatNames ps as bs = flatNames ps as [] := by
  induction ps generalizing as bs with
  | nil => rfl
  | cons p ps ih =>
    cases bs with
    | nil => rfl
    | cons b bs =>
      have := h b List.mem_cons_self
      subst this
      simp [flatNames_cons, part, ih as.tail bs fun n hn => h n (List.mem_cons_of_mem _ hn)]

theorem rebuild_plain (f : Features) {k : Kind} (h : k.layout = none) (vs : List (Vm σ)) :
    rebuildNode f k vs = goAll vs >>= fun ns => pure (.node k ns) := by
  cases k <;> simp only [Kind.layout, reduceCtorEq] at h <;> rfl

theorem rebuild_wrap (f : Features) {k : Kind} (h : k.wraps = true) (b x : Vm σ) :
    rebuildNode f k [b, x] = (do
      let o ← action b.parts 0
      let x ← x.go
      let c ← action b.parts 1
      pure (.node k [.spanOf o c, x])) := by
  cases k <;> simp only [Kind.wraps, Bool.false_eq_true] at h <;> rfl

theorem rebuild_wrapSecond (f : Features) {k : Kind} (h : k.wrapsSecond = true) (a b x : Vm σ) :
    rebuildNode f k [a, b, x] = (do
      let a ← a.go
      let o ← action b.parts 0
      let x ← x.go
      let c ← action b.parts 1
      pure (.node k [a, .spanOf o c, x])) := by
  cases k <;> simp only [Kind.wrapsSecond, Bool.false_eq_true] at h <;> rfl

theorem InOrder.eq {v : TokenVisitor σ} {g : Node → StateM σ Node} {n : Node} (h : InOrder v g n) :
    visitRefs v n.flat = fun s => ((g n s).1.flat, (g n s).2) := funext h

@[simp] theorem children_span (o c : Node) : (Node.spanOf o c).children = [o, c] := rfl

theorem visitMut_inOrder (f : Features) (v : TokenVisitor σ) (n : Node) :
    Typed R₀ n → n.Every (annotationsCompiled f) → InOrder v (Node.visitMut f v) n := by
  induction n using Node.induct3 with
  | ht t => intro _ _ s; rfl
  | hn k cs ih ih2 ih3 =>
    intro hty hann s
    obtain ⟨hann, hanns⟩ := (Node.every_node _ _ _).1 hann
    have ih3 : ∀ c ∈ cs, ∀ d ∈ c.children, ∀ e ∈ d.children, InOrder v (Node.visitMut f v) e := fun c hc d hd e he =>
      ih3 c hc d hd e he (((hty.cases.1 c hc).children d hd).children e he) (((hanns c hc).children d hd).children e he)
    have ih2 : ∀ c ∈ cs, ∀ d ∈ c.children, InOrder v (Node.visitMut f v) d := fun c hc d hd =>
      ih2 c hc d hd ((hty.cases.1 c hc).children d hd) ((hanns c hc).children d hd)
    have ih : ∀ c ∈ cs, InOrder v (Node.visitMut f v) c := fun c hc => ih c hc (hty.cases.1 c hc) (hanns c hc)
    rw [Node.visitMut_node]
    have hv := hty.view
    clear hty hanns
    cases hv with
    | plain hl =>
      rw [Node.flat_plain hl, rebuild_plain f hl, goAll_inOrder v _ cs ih]
      simp [Node.flat_plain hl]
    | wrap hk o c x =>
      have hx := (ih x (by simp)).eq
      simp [flat_wrap hk, rebuild_wrap f hk, Vm.of, action, visitRefs_append, hx]
    | wrapSecond hk b o c x =>
      have hx := (ih x (by simp)).eq
      have hb := (ih b (by simp)).eq
      simp [flat_wrapSecond hk, rebuild_wrapSecond f hk, Vm.of, action, visitRefs_append, hx, hb]
    | fieldExprKey o c x e w =>
      have hx := (ih x (by simp)).eq
      have hw := (ih w (by simp)).eq
      simp [flat_fieldExprKey, rebuildNode, Vm.of, action, visitRefs_append, hx, hw]
    | tyArray o c a x =>
      have hx := (ih x (by simp)).eq
      have ha := (ih a (by simp)).eq
      simp [flat_tyArray, rebuildNode, Vm.of, action, visitRefs_append, hx, ha]
    | tyCallback g o c x a r =>
      have hx := (ih x (by simp)).eq
      have hg := (ih g (by simp)).eq
      have hr := (ih r (by simp)).eq
      simp [flat_tyCallback, rebuildNode, Vm.of, action, visitRefs_append, hx, hg, hr]
    | typeInst o p i j x =>
      have hx := (ih x (by simp)).eq
      simp [flat_typeInst, rebuildNode, Vm.of, action, visitRefs_append, hx]
    | numericFor f' i e s' c t c' p d b n ty =>
      have h1 := (ih f' (by simp)).eq
      have h2 := (ih i (by simp)).eq
      have h3 := (ih e (by simp)).eq
      have h4 := (ih s' (by simp)).eq
      have h5 := (ih c (by simp)).eq
      have h6 := (ih t (by simp)).eq
      have h7 := (ih c' (by simp)).eq
      have h8 := (ih p (by simp)).eq
      have h9 := (ih d (by simp)).eq
      have h10 := (ih b (by simp)).eq
      have h11 := (ih n (by simp)).eq
      have h12 := (ih ty (by simp)).eq
      simp [flat_numericFor, rebuildNode, Vm.of, visitRefs_append, h1, h2, h3, h4, h5, h6, h7, h8, h9, h10, h11, h12]
    | genericFor f' ps i e d b n ts hp ht =>
      have h2 := (ih i (by simp)).eq
      have h3 := (ih e (by simp)).eq
      have h4 := (ih d (by simp)).eq
      have h5 := (ih b (by simp)).eq
      have hn := rebuildNames_inOrder ps [] ts hp (ih3 (.node .punct ps) (by simp)) (by simp)
        (ih2 (.node .vec ts) (by simp))
      have hz := fun s => rebuildNames_none ps [] ts (Node.visitMut f v) s
      simp only [List.map_nil] at hz
      simp only [flat_genericFor, rebuildNode, Vm.of, visitRefs_append, visitRefs_cons, visitRefs_nil, Node.flat_tok, Node.visitMut_tok, h2, h3, h4, h5, hn, run_bind, run_pure,
        List.map_cons, List.map_nil, Node.children_node, annotations]
      rw [flatNames_none_first _ _ _ ((hz _).1 trivial)]
      cases hf : f.luau with
      | true => simp
      | false =>
        have := (hz (TokRef.visitMut v f' s).2).2 (hann hf)
        simp [flatNames_none_second _ _ _ this]
    | funcBody g o c ps ts r b n hp ht =>
      have h1 := (ih g (by simp)).eq
      have h3 := (ih r (by simp)).eq
      have h5 := (ih b (by simp)).eq
      have hn := rebuildNames_inOrder ps [] ts hp (ih3 (.node .punct ps) (by simp)) (by simp)
        (ih2 (.node .vec ts) (by simp))
      have hz := fun s => rebuildNames_none ps [] ts (Node.visitMut f v) s
      simp only [List.map_nil] at hz
      simp only [flat_funcBody, rebuildNode, Vm.of, visitRefs_append, visitRefs_cons, h1, h3, h5, visitRefs_nil, Node.flat_tok, hn, run_bind,
        run_pure, List.map_cons, List.map_nil, Node.children_node, annotations, children_span, action,
        Node.visitMut_tok]
      rw [flatNames_none_first _ _ _ ((hz _).1 trivial)]
      cases hf : f.luau with
      | true => simp
      | false =>
        have := (hz (TokRef.visitMut v o (Node.visitMut f v g s).2).2).2 (hann hf)
        simp [flatNames_none_second _ _ _ this]
    | localAssignment l ts ps as e x hp ht ha =>
      have h2 := (ih e (by simp)).eq
      have h3 := (ih x (by simp)).eq
      have hn := rebuildNames_inOrder ps as ts hp (ih3 (.node .punct ps) (by simp)) (ih2 (.node .vec as) (by simp))
        (ih2 (.node .vec ts) (by simp))
      have hz := rebuildNames_none ps as ts (Node.visitMut f v) (TokRef.visitMut v l s).2
      simp only [flat_localAssignment, rebuildNode, Vm.of, visitRefs_append, visitRefs_cons, visitRefs_nil, Node.flat_tok, Node.visitMut_tok, h2, h3, hn, run_bind, run_pure,
        List.map_cons, List.map_nil, Node.children_node, annotations]
      cases hf : f.luau <;> cases hf' : f.lua54
      · simp [flatNames_none_second _ _ _ (hz.2 (hann.1 hf)),
          flatNames_none_first _ _ _ (hz.1 (hann.2 hf'))]
      · simp [flatNames_none_second _ _ _ (hz.2 (hann.1 hf))]
      · simp [flatNames_none_first _ _ _ (hz.1 (hann.2 hf'))]
      · simp

end FM
