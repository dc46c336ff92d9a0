import Verif.Spec.Visited
import Verif.Proofs.Ast.Visit
import Verif.Proofs.Ast.View

/-! Helper lemmas: what an immutable visitor sees. -/

namespace FM
open Spec

theorem Node.showns_eq : ∀ cs : List Node, Node.shown.showns cs = cs.map Node.shown
  | [] => rfl
  | c :: cs => by rw [Node.shown.showns, Node.showns_eq cs, List.map_cons]

theorem Node.shown_node (k : Kind) (cs : List Node) : (Node.node k cs).shown = .node k (shownParts k (cs.map Node.shown)) := by
  rw [Node.shown, Node.showns_eq]

theorem Node.shown_tok (t : TokRef) : (Node.tok t).shown = .tok t := by rw [Node.shown]

theorem shown_span (o c : TokRef) : (Node.spanOf (.tok o) (.tok c)).shown = Node.spanOf (.tok o) (.tok c) := by
  rw [Node.spanOf, Node.shown_node]
  simp [shownParts, Node.shown_tok]

theorem shownParts_plain {k : Kind} (h : k.layout = none) (cs : List Node) : shownParts k cs = cs := by
  unfold shownParts
  split <;> first | rfl | cases h

theorem hooked_nil : hooked [] = [] := rfl
theorem hooked_cons (t : TokRef) (ts : List TokRef) : hooked (t :: ts) = hooked [t] ++ hooked ts := hooked_append [t] ts

theorem visitLayout_plain {k : Kind} (h : k.layout = none) : k.visitLayout = none := by
  cases k <;> first | rfl | exact h | cases h

theorem names_shown {R₀ : TokRef → Prop} {a : Ty} (S H : Node → List Token) : ∀ {ps : List Node} (as bs as' bs' : List (List Token)),
    (∀ p ∈ ps, HasTy R₀ (.pair a) p) → (∀ p ∈ ps, ∀ x ∈ p.children, S x = H x.shown) → as = as' → bs = bs' →
    joinNames false (ps.map fun p => p.children.map S) as bs =
      joinNames true (ps.map fun p => ((p.shown.children.take 1)).map H) as' bs'
  | [], as, bs, as', bs', _, _, _, _ => by simp [joinNames]
  | p :: ps, as, bs, as', bs', ht, h, ea, eb => by
    subst ea eb
    have ih := names_shown (R₀ := R₀) (a := a) S H (ps := ps) as.tail bs.tail as.tail bs.tail (fun q hq => ht q (by simp [hq]))
      (fun q hq => h q (by simp [hq])) rfl rfl
    have hp := ht p (by simp)
    have h1 := h p (by simp)
    simp only [List.map_cons, joinNames, ih]
    rcases hasTy_pair.1 hp with ⟨x, _, rfl⟩ | ⟨x, s, _, _, rfl⟩
    · have := h1 x (by simp [Node.children])
      simp [Node.shown_node, shownParts, Node.children, part, this]
    · have := h1 x (by simp [Node.children])
      simp [Node.shown_node, shownParts, Node.children, part, this]

theorem seen_shown {R₀ : TokRef → Prop} (n : Node) : Typed R₀ n → seen n.visit = hooked n.shown.flat := by
  induction n using Node.induct3 with
  | ht t => intro _; rw [Node.shown_tok]; simpa using seen_ref t
  | hn k cs ih ih2 ih3 =>
    intro hty
    have hc := hty.cases.1
    have ih1 : ∀ c ∈ cs, seen c.visit = hooked c.shown.flat := fun c h => ih c h (hc c h)
    have ihh : ∀ c ∈ cs, ∀ d ∈ c.children, seen d.visit = hooked d.shown.flat := fun c h d hd => ih2 c h d hd ((hc c h).children d hd)
    have ihhh : ∀ c ∈ cs, ∀ d ∈ c.children, ∀ e ∈ d.children, seen e.visit = hooked e.shown.flat :=
      fun c h d hd e he => ih3 c h d hd e he (((hc c h).children d hd).children e he)
    have ht : ∀ t : TokRef, seen (Node.tok t).visit = hooked [t] := seen_ref
    have ht' : ∀ t : TokRef, seen t.visit = hooked [t] := fun t => by simpa using seen_ref t
    have hch : ∀ (k : Kind) (cs : List Node), (Node.node k cs).children = cs := fun _ _ => rfl
    rw [seen_node, Node.shown_node]
    cases hty.view with
    | plain h =>
      rw [visitLayout_plain h, shownParts_plain h, Node.flat_plain h]
      simp only [arrange, concat, List.flatMap_map, R.of]
      clear hty ih ih2 ih3 ihh ihhh hc
      induction cs with
      | nil => rfl
      | cons c cs ih =>
        rw [List.flatMap_cons, List.flatMap_cons, hooked_append, ih1 c (by simp), ih fun d hd => ih1 d (by simp [hd])]
    | wrap h o c x =>
      have hx := ih1 x (by simp)
      have e : shownParts k [(Node.spanOf (.tok o) (.tok c)).shown, x.shown] = [.spanOf (.tok o) (.tok c), x.shown] := by
        rw [shown_span]
        cases k <;> simp only [Kind.wraps, Bool.false_eq_true] at h <;> rfl
      simp only [List.map_cons, List.map_nil]
      rw [e, flat_wrap h, hooked_cons, hooked_append, ← hx]
      cases k <;> simp only [Kind.wraps, Bool.false_eq_true] at h <;>
        simp [arrange, Kind.visitLayout, Kind.layout, Slot.run, R.nth, R.of, part, Node.spanOf, ht']
    | wrapSecond h b o c x =>
      have hb := ih1 b (by simp)
      have hx := ih1 x (by simp)
      have e : shownParts k [b.shown, (Node.spanOf (.tok o) (.tok c)).shown, x.shown] = [b.shown, .spanOf (.tok o) (.tok c), x.shown] := by
        rw [shown_span]
        cases k <;> simp only [Kind.wrapsSecond, Bool.false_eq_true] at h <;> rfl
      simp only [List.map_cons, List.map_nil]
      rw [e, flat_wrapSecond h, hooked_append, hooked_cons, hooked_append, ← hx, ← hb]
      cases k <;> simp only [Kind.wrapsSecond, Bool.false_eq_true] at h <;>
        simp [arrange, Kind.visitLayout, Kind.layout, Slot.run, R.nth, R.of, part, Node.spanOf, ht']
    | fieldExprKey o c x e v =>
      have hx := ih1 x (by simp)
      have hv := ih1 v (by simp)
      simp only [List.map_cons, List.map_nil, shownParts, shown_span, Node.shown_tok, flat_fieldExprKey, Node.flat_tok]
      rw [hooked_cons o, hooked_append, hooked_cons c, ← hx]
      simp only [hooked_append, ← hv]
      simp [arrange, Kind.visitLayout, Kind.layout, Slot.run, R.nth, R.of, part, Node.spanOf, ht']
    | tyArray o c a x =>
      have hx := ih1 x (by simp)
      have hv := ih1 a (by simp)
      simp only [List.map_cons, List.map_nil, shownParts, shown_span, flat_tyArray]
      rw [hooked_cons o]
      simp only [hooked_append, ← hx, ← hv]
      simp [arrange, Kind.visitLayout, Kind.layout, Slot.run, R.nth, R.of, part, Node.spanOf, ht']
    | tyCallback g o c x a r =>
      have hx := ih1 x (by simp)
      have hg := ih1 g (by simp)
      have hr := ih1 r (by simp)
      simp only [List.map_cons, List.map_nil, shownParts, shown_span, Node.shown_tok, flat_tyCallback, Node.flat_tok]
      rw [hooked_append, hooked_cons o, hooked_append, hooked_cons c, ← hx, ← hg]
      simp only [hooked_append, ← hr]
      simp [arrange, Kind.visitLayout, Kind.layout, Slot.run, R.nth, R.of, part, Node.spanOf, ht']
    | typeInst o p i j x =>
      have hx := ih1 x (by simp)
      simp only [List.map_cons, List.map_nil, shown_span]
      rw [show shownParts .typeInst [.spanOf (.tok o) (.tok p), .spanOf (.tok i) (.tok j), x.shown] =
        [.spanOf (.tok o) (.tok p), .spanOf (.tok i) (.tok i), x.shown] from rfl]
      have := flat_typeInst o p i i x.shown
      rw [this, show o :: i :: (x.shown.flat ++ [i, p]) = [o] ++ ([i] ++ (x.shown.flat ++ ([i] ++ [p]))) from rfl]
      simp only [hooked_append, ← hx]
      simp [arrange, Kind.visitLayout, Slot.run, R.nth, R.of, part, Node.spanOf, ht']
    | numericFor f i e s c t c' p d b n ty =>
      simp only [List.map_cons, List.map_nil, shownParts, flat_numericFor, hooked_append]
      simp only [arrange, Kind.visitLayout, Kind.layout, Slot.run, R.nth, R.of, List.flatMap_cons, List.flatMap_nil, List.map_cons, List.map_nil, List.append_nil]
      simp only [List.forall_mem_cons] at ih1
      obtain ⟨h1, h2, h3, h4, h5, h6, h7, h8, h9, h10, h11, h12, _⟩ := ih1
      simp only [h1, h2, h3, h4, h5, h6, h7, h8, h9, h10, h11, h12]
    | genericFor f ps i e d b n ts hp hts =>
      simp only [List.forall_mem_cons] at ih1
      obtain ⟨h1, _, h3, h4, h5, h6, h7, _⟩ := ih1
      have hps := ihhh (.node .punct ps) (by simp)
      have hbs : ∀ d ∈ ts, seen d.visit = hooked d.shown.flat := ihh (.node .vec ts) (by simp)
      have key := names_shown (fun n => seen n.visit) (fun n => hooked n.flat) [] (ts.map fun n => seen n.visit) [] (ts.map fun n => hooked n.shown.flat) hp hps rfl
        (List.map_congr_left hbs)
      simp only [List.map_cons, List.map_nil, shownParts, Node.shown_node .punct, Node.shown_node .vec, unseparated, flat_genericFor, hooked_append, flatNames]
      rw [← joinNames_lift hooked hooked_nil hooked_append]
      simp only [arrange, Kind.visitLayout, Slot.run, R.nth, R.of, R.elems, List.flatMap_cons, List.flatMap_nil, List.map_cons, List.map_nil, List.append_nil, hch,
        h1, h3, h4, h5, h6, h7, key, List.map_map, Function.comp_def]
    | funcBody g o c ps ts r b n hp hts =>
      simp only [List.forall_mem_cons] at ih1
      obtain ⟨h1, _, _, _, h5, h6, h7, _⟩ := ih1
      have hps := ihhh (.node .punct ps) (by simp)
      have hbs : ∀ d ∈ ts, seen d.visit = hooked d.shown.flat := ihh (.node .vec ts) (by simp)
      have key := names_shown (fun n => seen n.visit) (fun n => hooked n.flat) [] (ts.map fun n => seen n.visit) [] (ts.map fun n => hooked n.shown.flat) hp hps rfl
        (List.map_congr_left hbs)
      simp only [List.map_cons, List.map_nil, shownParts, Node.shown_node .punct, Node.shown_node .vec, unseparated, shown_span, flat_funcBody, flatNames]
      rw [hooked_append, hooked_cons o, hooked_append, hooked_cons c]
      simp only [hooked_append]
      rw [← joinNames_lift hooked hooked_nil hooked_append]
      simp only [arrange, Kind.visitLayout, Slot.run, R.nth, R.of, R.elems, List.flatMap_cons, List.flatMap_nil, List.map_cons, List.map_nil, List.append_nil, hch,
        h1, h5, h6, h7, key, List.map_map, Function.comp_def, Node.spanOf, part, ht]
    | localAssignment l ts ps as e x hp hts has =>
      simp only [List.forall_mem_cons] at ih1
      obtain ⟨h1, _, _, _, h5, h6, _⟩ := ih1
      have hps := ihhh (.node .punct ps) (by simp)
      have hbs : ∀ d ∈ ts, seen d.visit = hooked d.shown.flat := ihh (.node .vec ts) (by simp)
      have has : ∀ d ∈ as, seen d.visit = hooked d.shown.flat := ihh (.node .vec as) (by simp)
      have key := names_shown (fun n => seen n.visit) (fun n => hooked n.flat) (as.map fun n => seen n.visit) (ts.map fun n => seen n.visit)
        (as.map fun n => hooked n.shown.flat) (ts.map fun n => hooked n.shown.flat) hp hps (List.map_congr_left has) (List.map_congr_left hbs)
      simp only [List.map_cons, List.map_nil, shownParts, Node.shown_node .punct, Node.shown_node .vec, unseparated, flat_localAssignment, hooked_append, flatNames]
      rw [← joinNames_lift hooked hooked_nil hooked_append]
      simp only [arrange, Kind.visitLayout, Slot.run, R.nth, R.of, R.elems, List.flatMap_cons, List.flatMap_nil, List.map_cons, List.map_nil, List.append_nil, hch,
        h1, h5, h6, key, List.map_map, Function.comp_def]

end FM
