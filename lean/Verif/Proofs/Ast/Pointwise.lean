import Verif.Proofs.Ast.VisitMut

/-!
# Mutable visitors without state act pointwise
-/

namespace FM
open Spec

variable {R₀ : TokRef → Prop} {σ : Type}

theorem goAll_pointwise (g : Node → StateM σ Node) (h : Node → Node) :
    ∀ (cs : List Node), (∀ c ∈ cs, ∀ s, g c s = (h c, s)) → ∀ s, goAll (cs.map (Vm.of g)) s = (cs.map h, s)
  | [], _, s => rfl
  | c :: cs, hc, s => by
    have ih := goAll_pointwise g h cs (fun d hd => hc d (List.mem_cons_of_mem _ hd))
    simp [goAll, Vm.of, hc c List.mem_cons_self] at ih ⊢
    simp [ih]

theorem rebuildNames_pointwise {g : Node → StateM σ Node} {h : TokRef → TokRef} {a : Ty} :
    ∀ (ps as bs : List Node), (∀ p ∈ ps, HasTy R₀ (.pair a) p) →
      (∀ p ∈ ps, ∀ c ∈ p.children, ∀ s, g c s = (c.mapTok h, s)) →
      (∀ a ∈ as, ∀ s, g a s = (a.mapTok h, s)) → (∀ b ∈ bs, ∀ s, g b s = (b.mapTok h, s)) → ∀ s,
      ∃ as' bs', rebuildNames (ps.map fun p => p.children.map g) (as.map g) (bs.map g) s =
          ((ps.map (Node.mapTok h), as', bs'), s) ∧
        (as.length = ps.length → as' = as.map (Node.mapTok h)) ∧
        (bs.length = ps.length → bs' = bs.map (Node.mapTok h))
  | [], as, bs, _, _, _, _, s => ⟨[], [], rfl, by simp +contextual, by simp +contextual⟩
  | p :: ps, as, bs, hp, hc, ha, hb, s => by
    have tl : ∀ {l : List Node} {P : Node → Prop}, (∀ a ∈ l, P a) → ∀ a ∈ l.tail, P a :=
      fun h a hm => h a (List.mem_of_mem_tail hm)
    obtain ⟨as', bs', e, h1, h2⟩ := rebuildNames_pointwise (g := g) (h := h) ps as.tail bs.tail
      (fun q hq => hp q (List.mem_cons_of_mem _ hq)) (fun q hq => hc q (List.mem_cons_of_mem _ hq)) (tl ha) (tl hb) s
    have hcp := hc p List.mem_cons_self
    have hpp := hp p List.mem_cons_self
    have mt : ∀ l : List Node, (l.map g).tail = l.tail.map g := fun l => by cases l <;> rfl
    have act : ∀ (l : List Node), (∀ a ∈ l, ∀ s, g a s = (a.mapTok h, s)) → ∀ s,
        action (l.map g) 0 s = (((l.map (Node.mapTok h)).head?).getD .none, s) := by
      intro l hl s
      cases l with
      | nil => rfl
      | cons a l => simp [action, hl a List.mem_cons_self]
    have fin : ∀ (l l' : List Node), (l.tail.length = ps.length → l' = l.tail.map (Node.mapTok h)) →
        l.length = (p :: ps).length →
        ((l.map (Node.mapTok h)).head?).getD .none :: l' = l.map (Node.mapTok h) := by
      intro l l' hl hlen
      cases l with
      | nil => simp at hlen
      | cons a l => simp at hlen; simp [hl hlen]
    refine ⟨((as.map (Node.mapTok h)).head?).getD .none :: as', ((bs.map (Node.mapTok h)).head?).getD .none :: bs',
      ?_, fin as as' h1, fin bs bs' h2⟩
    rcases hasTy_pair.1 hpp with ⟨x, _, rfl⟩ | ⟨x, t, _, _, rfl⟩
    · have hx := hcp x (by simp)
      simp only [rebuildNames, List.map_cons, List.map_nil, Node.children_node, run_bind, run_pure, action, hx,
        act as ha, act bs hb, mt, e, Node.mapTok_node]
    · have hx := hcp x (by simp)
      have ht := hcp (.tok t) (by simp)
      simp only [rebuildNames, List.map_cons, List.map_nil, Node.children_node, run_bind, run_pure, action, hx, ht,
        act as ha, act bs hb, mt, e, Node.mapTok_node]

theorem mapTok_span (h : TokRef → TokRef) (o c : Node) :
    (Node.spanOf o c).mapTok h = Node.spanOf (o.mapTok h) (c.mapTok h) := by simp [Node.spanOf]

theorem visitMut_pointwise (f : Features) (v : TokenVisitor σ) (h : TokRef → TokRef)
    (hv : ∀ t s, TokRef.visitMut v t s = (h t, s)) (n : Node) :
    Typed R₀ n → AnnotationsCompiled f n → AnnotationsFull f n → ∀ s, n.visitMut f v s = (n.mapTok h, s) := by
  induction n using Node.induct3 with
  | ht t => intro _ _ _ s; simp [hv]
  | hn k cs ih ih2 ih3 =>
    intro hty hcom hful s
    obtain ⟨hcom, hcoms⟩ := (Node.every_node _ _ _).1 hcom
    obtain ⟨hful, hfuls⟩ := (Node.every_node _ _ _).1 hful
    have ih3 : ∀ c ∈ cs, ∀ d ∈ c.children, ∀ e ∈ d.children, ∀ s, e.visitMut f v s = (e.mapTok h, s) :=
      fun c hc d hd e he => ih3 c hc d hd e he (((hty.cases.1 c hc).children d hd).children e he)
        (((hcoms c hc).children d hd).children e he) (((hfuls c hc).children d hd).children e he)
    have ih2 : ∀ c ∈ cs, ∀ d ∈ c.children, ∀ s, d.visitMut f v s = (d.mapTok h, s) := fun c hc d hd =>
      ih2 c hc d hd ((hty.cases.1 c hc).children d hd) ((hcoms c hc).children d hd) ((hfuls c hc).children d hd)
    have ih : ∀ c ∈ cs, ∀ s, c.visitMut f v s = (c.mapTok h, s) :=
      fun c hc => ih c hc (hty.cases.1 c hc) (hcoms c hc) (hfuls c hc)
    rw [Node.visitMut_node]
    have hview := hty.view
    clear hty hcoms hfuls
    cases hview with
    | plain hl =>
      rw [rebuild_plain f hl]
      simp [goAll_pointwise _ _ cs ih]
    | wrap hk o c x =>
      simp [rebuild_wrap f hk, Vm.of, action, ih x, hv, mapTok_span]
    | wrapSecond hk b o c x =>
      simp [rebuild_wrapSecond f hk, Vm.of, action, ih x, ih b, hv, mapTok_span]
    | fieldExprKey o c x e w =>
      simp [rebuildNode, Vm.of, action, ih x, ih w, hv, mapTok_span]
    | tyArray o c a x =>
      simp [rebuildNode, Vm.of, action, ih x, ih a, hv, mapTok_span]
    | tyCallback g o c x a r =>
      simp [rebuildNode, Vm.of, action, ih x, ih g, ih r, hv, mapTok_span]
    | typeInst o p i j x =>
      simp [rebuildNode, Vm.of, action, ih x, hv, mapTok_span]
    | numericFor f' i e s' c t c' p d b n ty =>
      simp [rebuildNode, Vm.of, ih f', ih i, ih e, ih s', ih c, ih t, ih c', ih p, ih d, ih b, ih n, ih ty]
    | genericFor f' ps i e d b n ts hp ht =>
      obtain ⟨as', bs', hr, h1, h2⟩ := rebuildNames_pointwise ps [] ts hp (ih3 (.node .punct ps) (by simp)) (by simp)
        (ih2 (.node .vec ts) (by simp)) s
      simp only [List.map_nil] at hr
      simp [rebuildNode, Vm.of, hv, ih i, ih e, ih d, ih b, hr, annotations]
      cases hf : f.luau with
      | true => simp [h2 (hful hf)]
      | false =>
        have : ts = [] := hcom hf
        simp [this]
    | funcBody g o c ps ts r b n hp ht =>
      obtain ⟨as', bs', hr, h1, h2⟩ := rebuildNames_pointwise ps [] ts hp (ih3 (.node .punct ps) (by simp)) (by simp)
        (ih2 (.node .vec ts) (by simp)) s
      simp only [List.map_nil] at hr
      simp [rebuildNode, Vm.of, ih g, ih r, ih b, hr, annotations, action, hv, mapTok_span]
      cases hf : f.luau with
      | true => simp [h2 (hful hf)]
      | false =>
        have : ts = [] := hcom hf
        simp [this]
    | localAssignment l ts ps as e x hp ht ha =>
      obtain ⟨as', bs', hr, h1, h2⟩ := rebuildNames_pointwise ps as ts hp (ih3 (.node .punct ps) (by simp))
        (ih2 (.node .vec as) (by simp)) (ih2 (.node .vec ts) (by simp)) s
      have e1 : (if f.luau = true then bs' else []) = ts.map (Node.mapTok h) := by
        cases hf : f.luau with
        | true => simp [h2 (hful.1 hf)]
        | false =>
          have : ts = [] := hcom.1 hf
          simp [this]
      have e2 : (if f.lua54 = true then as' else []) = as.map (Node.mapTok h) := by
        cases hf : f.lua54 with
        | true => simp [h1 (hful.2 hf)]
        | false =>
          have : as = [] := hcom.2 hf
          simp [this]
      simp [rebuildNode, Vm.of, hv, ih e, ih x, hr, annotations, e1, e2]

theorem mapTok_id (n : Node) : n.mapTok id = n := by
  induction n using Node.induct with
  | ht t => rfl
  | hn k cs ih =>
    rw [Node.mapTok_node]
    congr 1
    calc cs.map (Node.mapTok id) = cs.map id := List.map_congr_left fun c hc => ih c hc
      _ = cs := List.map_id _

end FM
