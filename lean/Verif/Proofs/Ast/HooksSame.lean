import Verif.Proofs.Ast.Hooks

/-!
# The calls of mutable and immutable visitors compared
-/

namespace FM
open Spec

variable {R₀ : TokRef → Prop}

theorem Kind.visit_around (k : Kind) (rs : List (R Ev)) :
    k.visit rs = (k.hook.map Prod.fst).toList ++ arrange k.visitLayout rs ++ (k.hook.map Prod.snd).toList := by
  unfold Kind.visit; split <;> simp_all

/-- Without lists of names with commas and type instantiations, `Visit` walks in print order. -/
theorem visit_walk (n : Node) : Typed R₀ n → Visitable n → n.visit = n.walk := by
  induction n using Node.induct3 with
  | ht t => intros; rfl
  | hn k cs ih ih2 ih3 =>
    intro hty hv
    obtain ⟨hv, hvs⟩ := (Node.every_node _ _ _).1 hv
    rw [Node.visit_node, Node.walk_node, Kind.visit_around, Kind.walk_around]
    rw [show cs.map (R.of Node.visit) = cs.map (R.of Node.walk) from
      List.map_congr_left fun c hc => R.of_congr (ih c hc (hty.cases.1 c hc) (hvs c hc))
        (fun d hd => ih2 c hc d hd ((hty.cases.1 c hc).children d hd) ((hvs c hc).children d hd))
        (fun d hd e he => ih3 c hc d hd e he (((hty.cases.1 c hc).children d hd).children e he)
          (((hvs c hc).children d hd).children e he))]
    rw [arrange_visitable hv]
    intro hk
    refine (hty.cases.2 ?_).length
    rcases hk with rfl | rfl | rfl <;> rfl

/-! ## Calls on nodes -/

def nodeCalls (es : List Ev) : List Ev := es.filter onNode

theorem nodeCalls_append (a b : List Ev) : nodeCalls (a ++ b) = nodeCalls a ++ nodeCalls b := by simp [nodeCalls]

theorem nodeCalls_token (t : TokRef) : nodeCalls t.visit = [] := by
  have h1 : ∀ t : Token, ∀ e ∈ t.visit, onNode e = false := by
    intro t e he
    unfold Token.visit at he
    rcases List.mem_cons.1 he with rfl | he
    · rfl
    · split at he
      · cases he
      · cases List.mem_singleton.1 he; rfl
  unfold nodeCalls TokRef.visit
  rw [List.filter_eq_nil_iff]
  intro e he
  simp only [List.cons_append, List.mem_cons, List.mem_append, List.mem_flatMap] at he
  rcases he with rfl | ((he | ⟨t, _, he⟩) | he) | ⟨t, _, he⟩
  · simp [onNode]
  · split at he
    · cases List.mem_singleton.1 he; simp [onNode]
    · cases he
  · simp [h1 _ _ he]
  · simp [h1 _ _ he]
  · simp [h1 _ _ he]

/-- Commas do not matter if they give nothing. -/
theorem joinNames_silent {β : Type} : ∀ (ps : List (List (List β))) (as bs : List (List β)),
    (∀ p ∈ ps, part p 1 = []) → joinNames false ps as bs = joinNames true ps as bs
  | [], _, _, _ => rfl
  | p :: ps, as, bs, h => by
    simp [joinNames, h p List.mem_cons_self, joinNames_silent ps as.tail bs.tail fun q hq => h q (List.mem_cons_of_mem _ hq)]

theorem commas_silent {β : Type} {g : Node → List β} (hg : ∀ t, g (.tok t) = []) {a : Ty} {ps : List Node}
    (hp : ∀ p ∈ ps, HasTy R₀ (.pair a) p) : ∀ p ∈ ps.map (fun p => p.children.map g), part p 1 = [] := by
  intro p h
  obtain ⟨p, hm, rfl⟩ := List.mem_map.1 h
  rcases hasTy_pair.1 (hp p hm) with ⟨x, _, rfl⟩ | ⟨x, t, _, _, rfl⟩
  · rfl
  · simp [part, hg]

theorem arrange_silent {β : Type} {g : Node → List β} (hg : ∀ t, g (.tok t) = []) {k : Kind} {cs : List Node}
    (hv : View R₀ k cs) : arrange k.visitLayout (cs.map (R.of g)) = arrange k.layout (cs.map (R.of g)) := by
  cases hv with
  | plain hl => cases k <;> simp only [Kind.layout, reduceCtorEq] at hl <;> rfl
  | wrap hk => cases k <;> simp only [Kind.wraps, Bool.false_eq_true] at hk <;> rfl
  | wrapSecond hk => cases k <;> simp only [Kind.wrapsSecond, Bool.false_eq_true] at hk <;> rfl
  | fieldExprKey => rfl
  | tyArray => rfl
  | tyCallback => rfl
  | typeInst o p i j x => simp [arrange, Kind.visitLayout, Kind.layout, Slot.run, R.nth, R.of, part, Node.spanOf, hg]
  | numericFor => rfl
  | genericFor f' ps i e d b n ts hp ht =>
    simp [arrange, Kind.visitLayout, Kind.layout, Slot.run, R.nth, R.of, R.elems, joinNames_silent _ _ _ (commas_silent hg hp)]
  | funcBody g o c ps ts r b n hp ht =>
    simp [arrange, Kind.visitLayout, Kind.layout, Slot.run, R.nth, R.of, R.elems, joinNames_silent _ _ _ (commas_silent hg hp)]
  | localAssignment l ts ps as e x hp ht ha =>
    simp [arrange, Kind.visitLayout, Kind.layout, Slot.run, R.nth, R.of, R.elems, joinNames_silent _ _ _ (commas_silent hg hp)]

theorem arrange_calls (l : Option (List Slot)) (g : Node → List Ev) (cs : List Node) :
    nodeCalls (arrange l (cs.map (R.of g))) = arrange l (cs.map (R.of fun n => nodeCalls (g n))) := by
  rw [← arrange_lift nodeCalls rfl nodeCalls_append, List.map_map]
  congr 1
  exact List.map_congr_left fun c _ => R.of_lift nodeCalls g c

/-- `Visit` makes the calls on nodes in print order. -/
theorem nodeCalls_visit (n : Node) : Typed R₀ n → nodeCalls n.visit = nodeCalls n.walk := by
  induction n using Node.induct3 with
  | ht t => intros; rfl
  | hn k cs ih ih2 ih3 =>
    intro hty
    rw [Node.visit_node, Node.walk_node, Kind.visit_around, Kind.walk_around]
    simp only [nodeCalls_append, arrange_calls]
    rw [show cs.map (R.of fun n => nodeCalls n.visit) = cs.map (R.of fun n => nodeCalls n.walk) from
      List.map_congr_left fun c hc => R.of_congr (ih c hc (hty.cases.1 c hc))
        (fun d hd => ih2 c hc d hd ((hty.cases.1 c hc).children d hd))
        (fun d hd e he => ih3 c hc d hd e he (((hty.cases.1 c hc).children d hd).children e he))]
    rw [arrange_silent (R₀ := R₀) (fun t => nodeCalls_token t) hty.view]

/-! ## One call per node -/

/-- How often a node type is entered. -/
def entered (c : Cat) (es : List Ev) : Nat := es.countP (· == .enter c)

theorem entered_calls (c : Cat) (es : List Ev) : entered c (nodeCalls es) = entered c es := by
  unfold entered nodeCalls
  rw [List.countP_filter]
  congr 1
  funext e
  by_cases h : e = .enter c
  · subst h; simp [onNode]
  · simp [h]

theorem entered_append (c : Cat) (a b : List Ev) : entered c (a ++ b) = entered c a + entered c b := by simp [entered]

theorem Node.typesOf_eq (cs : List Node) : Node.types.typesOf cs = cs.flatMap Node.types := by
  induction cs with
  | nil => rfl
  | cons c cs ih => simp [Node.types.typesOf, ih]

@[simp] theorem Node.types_tok (t : TokRef) : (Node.tok t).types = [] := rfl
theorem Node.types_node (k : Kind) (cs : List Node) : (Node.node k cs).types = k.cat.toList ++ cs.flatMap Node.types := by
  rw [Node.types, Node.typesOf_eq]

theorem entered_token (c : Cat) (t : TokRef) : entered c t.visit = 0 := by
  rw [← entered_calls, nodeCalls_token]; rfl

theorem entered_hook {c : Cat} (hc : hasHooks c = true) (k : Kind) :
    entered c (k.hook.map Prod.fst).toList + entered c (k.hook.map Prod.snd).toList = k.cat.toList.count c := by
  rcases k.hook_cat with rfl | hk
  · rfl
  · rw [hk]
    cases k.cat with
    | none => rfl
    | some d =>
      cases hd : hasHooks d with
      | false =>
        have : d ≠ c := by rintro rfl; rw [hd] at hc; cases hc
        simp [hd, entered, this]
      | true =>
        by_cases h : d = c
        · subst h; simp [hd, entered]
        · simp [hd, entered, h]

theorem entered_joinNames (c : Cat) {a : Ty} : ∀ (ps as bs : List Node), (∀ p ∈ ps, HasTy R₀ (.pair a) p) →
    as.length ≤ ps.length → bs.length ≤ ps.length →
    (∀ p ∈ ps, ∀ x ∈ p.children, entered c x.walk = x.types.count c) →
    (∀ x ∈ as, entered c x.walk = x.types.count c) → (∀ x ∈ bs, entered c x.walk = x.types.count c) →
    entered c (walkNames ps as bs) =
      (ps.flatMap Node.types).count c + (as.flatMap Node.types).count c + (bs.flatMap Node.types).count c
  | [], [], [], _, _, _, _, _, _ => rfl
  | [], _ :: _, _, _, h, _, _, _, _ => by simp at h
  | [], [], _ :: _, _, _, h, _, _, _ => by simp at h
  | p :: ps, as, bs, hp, ha, hb, hc, h1, h2 => by
    have tl : ∀ {l : List Node} {P : Node → Prop}, (∀ a ∈ l, P a) → ∀ a ∈ l.tail, P a :=
      fun h a hm => h a (List.mem_of_mem_tail hm)
    have ih := entered_joinNames c ps as.tail bs.tail (fun q hq => hp q (List.mem_cons_of_mem _ hq))
      (by simp at ha ⊢; omega) (by simp at hb ⊢; omega) (fun q hq => hc q (List.mem_cons_of_mem _ hq)) (tl h1) (tl h2)
    have mt : ∀ l : List Node, (l.map Node.walk).tail = l.tail.map Node.walk := fun l => by cases l <;> rfl
    have act : ∀ (l : List Node), (∀ x ∈ l, entered c x.walk = x.types.count c) →
        entered c (part (l.map Node.walk) 0) + (l.tail.flatMap Node.types).count c = (l.flatMap Node.types).count c := by
      intro l hl
      cases l with
      | nil => rfl
      | cons x l => simp [part, hl x List.mem_cons_self]
    have e1 := act as h1
    have e2 := act bs h2
    have hcp := hc p List.mem_cons_self
    unfold walkNames at ih ⊢
    rcases hasTy_pair.1 (hp p List.mem_cons_self) with ⟨x, _, rfl⟩ | ⟨x, t, _, _, rfl⟩
    · have hx := hcp x (by simp)
      simp only [List.map_cons, List.map_nil, Node.children_node, joinNames, mt, entered_append, ih, part,
        List.flatMap_cons, List.count_append, Node.types_node, Kind.cat, List.flatMap_nil, hx, Option.toList, if_true,
        List.count_nil, show entered c [] = 0 from rfl]
      omega
    · have hx := hcp x (by simp)
      simp only [List.map_cons, List.map_nil, Node.children_node, joinNames, mt, entered_append, ih, part,
        List.flatMap_cons, List.count_append, Node.types_node, Kind.cat, List.flatMap_nil, hx, Option.toList,
        if_true, Node.walk_tok, entered_token, Node.types_tok, List.count_nil]
      omega

theorem entered_flatMap (c : Cat) : ∀ (cs : List Node), (∀ x ∈ cs, entered c x.walk = x.types.count c) →
    entered c (cs.flatMap Node.walk) = (cs.flatMap Node.types).count c
  | [], _ => rfl
  | x :: cs, h => by
    simp [entered_append, h x List.mem_cons_self, entered_flatMap c cs fun y hy => h y (List.mem_cons_of_mem _ hy)]

/-- Every node is entered once. -/
theorem entered_walk {c : Cat} (hc : hasHooks c = true) (n : Node) : Typed R₀ n → AnnotationsFit n →
    entered c n.walk = n.types.count c := by
  induction n using Node.induct3 with
  | ht t => intros; exact entered_token c t
  | hn k cs ih ih2 ih3 =>
    intro hty hfit
    obtain ⟨hfit, hfits⟩ := (Node.every_node _ _ _).1 hfit
    have ih3 : ∀ x ∈ cs, ∀ d ∈ x.children, ∀ e ∈ d.children, entered c e.walk = e.types.count c :=
      fun x hx d hd e he => ih3 x hx d hd e he (((hty.cases.1 x hx).children d hd).children e he)
        (((hfits x hx).children d hd).children e he)
    have ih2 : ∀ x ∈ cs, ∀ d ∈ x.children, entered c d.walk = d.types.count c := fun x hx d hd =>
      ih2 x hx d hd ((hty.cases.1 x hx).children d hd) ((hfits x hx).children d hd)
    have ih : ∀ x ∈ cs, entered c x.walk = x.types.count c := fun x hx => ih x hx (hty.cases.1 x hx) (hfits x hx)
    rw [Node.walk_node, Kind.walk_around, Node.types_node, List.count_append, entered_append, entered_append,
      ← entered_hook hc k]
    suffices h : entered c (arrange k.layout (cs.map (R.of Node.walk))) = (cs.flatMap Node.types).count c by
      rw [h]; omega
    have hview := hty.view
    clear hty hfits
    have et := entered_token c
    cases hview with
    | plain hl => rw [hl, arrange, concat_of, entered_flatMap c cs ih]
    | wrap hk o p x =>
      rw [arrange_wrap _ hk]
      have h1 := ih x (by simp)
      simp [entered_append, et, h1, Node.spanOf, Node.types_node, Kind.cat]
    | wrapSecond hk b o p x =>
      rw [arrange_wrapSecond _ hk]
      have h1 := ih x (by simp)
      have h2 := ih b (by simp)
      simp [entered_append, et, h1, h2, Node.spanOf, Node.types_node, Kind.cat]
    | fieldExprKey o p x e w =>
      have h1 := ih x (by simp)
      have h2 := ih w (by simp)
      simp [entered_append, et, h1, h2, Node.spanOf, Node.types_node, Kind.cat, arrange, Kind.layout, Slot.run, R.nth, R.of, part]
    | tyArray o p a x =>
      have h1 := ih x (by simp)
      have h2 := ih a (by simp)
      simp [entered_append, et, h1, h2, Node.spanOf, Node.types_node, Kind.cat, arrange, Kind.layout, Slot.run, R.nth, R.of, part]
    | tyCallback g o p x a r =>
      have h1 := ih x (by simp)
      have h2 := ih g (by simp)
      have h3 := ih r (by simp)
      simp [entered_append, et, h1, h2, h3, Node.spanOf, Node.types_node, Kind.cat, arrange, Kind.layout, Slot.run, R.nth, R.of, part]
    | typeInst o p i j x =>
      have h1 := ih x (by simp)
      simp [entered_append, et, h1, Node.spanOf, Node.types_node, Kind.cat, arrange, Kind.layout, Slot.run, R.nth, R.of, part]
    | numericFor f' i e s' m t c' p d b n ty =>
      have h1 := ih f' (by simp)
      have h2 := ih i (by simp)
      have h3 := ih e (by simp)
      have h4 := ih s' (by simp)
      have h5 := ih m (by simp)
      have h6 := ih t (by simp)
      have h7 := ih c' (by simp)
      have h8 := ih p (by simp)
      have h9 := ih d (by simp)
      have h10 := ih b (by simp)
      have h11 := ih n (by simp)
      have h12 := ih ty (by simp)
      simp [entered_append, h1, h2, h3, h4, h5, h6, h7, h8, h9, h10, h11, h12, arrange, Kind.layout, Slot.run, R.nth, R.of]
      omega
    | genericFor f' ps i e d b n ts hp ht =>
      have hr := entered_joinNames c ps [] ts hp (by simp) hfit (ih3 (.node .punct ps) (by simp)) (by simp)
        (ih2 (.node .vec ts) (by simp))
      have h2 := ih i (by simp)
      have h3 := ih e (by simp)
      have h4 := ih d (by simp)
      have h5 := ih b (by simp)
      simp only [walkNames, List.map_nil] at hr
      simp [entered_append, et, h2, h3, h4, h5, Node.types_node, Kind.cat, hr,
        arrange, Kind.layout, Slot.run, R.nth, R.of, R.elems]
      omega
    | funcBody g o p ps ts r b n hp ht =>
      have hr := entered_joinNames c ps [] ts hp (by simp) hfit (ih3 (.node .punct ps) (by simp)) (by simp)
        (ih2 (.node .vec ts) (by simp))
      have h2 := ih g (by simp)
      have h3 := ih r (by simp)
      have h4 := ih b (by simp)
      simp only [walkNames, List.map_nil] at hr
      simp [entered_append, et, h2, h3, h4, Node.types_node, Kind.cat, hr, Node.spanOf, part,
        arrange, Kind.layout, Slot.run, R.nth, R.of, R.elems]
      omega
    | localAssignment l ts ps as e x hp ht ha =>
      have hr := entered_joinNames c ps as ts hp hfit.2 hfit.1 (ih3 (.node .punct ps) (by simp))
        (ih2 (.node .vec as) (by simp)) (ih2 (.node .vec ts) (by simp))
      have h2 := ih e (by simp)
      have h3 := ih x (by simp)
      simp only [walkNames] at hr
      simp [entered_append, et, h2, h3, Node.types_node, Kind.cat, hr,
        arrange, Kind.layout, Slot.run, R.nth, R.of, R.elems]
      omega

end FM
