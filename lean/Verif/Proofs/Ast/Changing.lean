import Verif.Model.Ast.VisitChanging
import Verif.Spec.Expand
import Verif.Proofs.Ast.Hooks

/-!
# Mutable visitors that replace nodes before their parts are visited
-/

namespace FM
open Spec

variable {R₀ : TokRef → Prop} {σ : Type}

theorem Vm.at_eq (g : Node → StateM σ Node) : Vm.at g = Vm.of g := by
  funext n
  cases n with
  | tok t => rfl
  | node k cs =>
    simp only [Vm.at, Vm.of, Node.parts, Node.children_node]
    congr 1

/-! ## Lists -/

section
variable {E : Node → Node → Prop}

theorem Spec.Pairwise.nil {ds : List Node} (h : Pairwise E [] ds) : ds = [] := by
  cases ds with
  | nil => rfl
  | cons d ds => simp [Pairwise] at h

theorem Spec.Pairwise.cons {c : Node} {cs ds : List Node} (h : Pairwise E (c :: cs) ds) :
    ∃ d ds', ds = d :: ds' ∧ E c d ∧ Pairwise E cs ds' := by
  cases ds with
  | nil => simp [Pairwise] at h
  | cons d ds =>
    obtain ⟨h1, h2⟩ := h
    refine ⟨d, ds, rfl, h2 (c, d) (by simp), by simpa using h1, fun p hp => h2 p ?_⟩
    simp only [List.zip_cons_cons, List.mem_cons]; exact .inr hp

theorem Spec.Pairwise.mono {E' : Node → Node → Prop} {cs ds : List Node} (h : Pairwise E cs ds)
    (hm : ∀ c ∈ cs, ∀ d, E c d → E' c d) : Pairwise E' cs ds :=
  ⟨h.1, fun p hp => hm p.1 (List.of_mem_zip hp).1 p.2 (h.2 p hp)⟩

theorem zip_self {α : Type} : ∀ l : List α, l.zip l = l.map fun a => (a, a)
  | [] => rfl
  | a :: l => by rw [List.zip_cons_cons, zip_self l]; rfl

theorem Spec.pairwise_nil : Pairwise E [] [] := ⟨rfl, by simp⟩

theorem Spec.pairwise_cons {c d : Node} {cs ds : List Node} (h : E c d) (ht : Pairwise E cs ds) :
    Pairwise E (c :: cs) (d :: ds) := by
  refine ⟨by simp [ht.1], fun p hp => ?_⟩
  simp only [List.zip_cons_cons, List.mem_cons] at hp
  rcases hp with rfl | hp
  · exact h
  · exact ht.2 p hp

end

/-! ## Running with fuel what ends -/

/-- With fuel, `a` does what `b` does. -/
def Sim {α : Type} (a : StateM (Option σ) α) (b : StateM σ α) : Prop := ∀ s, a (some s) = ((b s).1, some (b s).2)

theorem Sim.pure {α : Type} (x : α) : Sim (Pure.pure x : StateM (Option σ) α) (Pure.pure x) := fun _ => rfl

theorem Sim.bind {α β : Type} {a : StateM (Option σ) α} {b : StateM σ α} {p : α → StateM (Option σ) β} {q : α → StateM σ β}
    (h : Sim a b) (hp : ∀ x, Sim (p x) (q x)) : Sim (a >>= p) (b >>= q) := by
  intro s
  rw [run_bind, run_bind, h s]
  exact hp _ _

theorem Sim.call {α : Type} (m : StateM σ α) (x : α) : Sim (callHook m x) m := fun _ => rfl

/-- A relation of programs that is kept by doing one after the other. -/
structure Progs (τ₁ τ₂ : Type) where
  rel : ∀ {α : Type}, StateM τ₁ α → StateM τ₂ α → Prop
  pure : ∀ {α : Type} (x : α), rel (Pure.pure x) (Pure.pure x)
  bind : ∀ {α β : Type} {a : StateM τ₁ α} {b : StateM τ₂ α} {p : α → StateM τ₁ β} {q : α → StateM τ₂ β},
    rel a b → (∀ x, rel (p x) (q x)) → rel (a >>= p) (b >>= q)

/-- See `Sim`. -/
def sims : Progs (Option σ) σ := ⟨Sim, .pure, .bind⟩

/-! ## Rebuilding -/

/-- `g₁` does to what is on the left what `g₂` does to what is on the right; containers correspond part by part. -/
structure Linked {τ₁ τ₂ : Type} (S : Progs τ₁ τ₂) (E : Node → Node → Prop) (g₁ : Node → StateM τ₁ Node) (g₂ : Node → StateM τ₂ Node) : Prop where
  sim : ∀ {n m}, E n m → S.rel (g₁ n) (g₂ m)
  tok : ∀ {t m}, E (.tok t) m → m = .tok t
  container : ∀ {k cs m}, k.cat = none → E (.node k cs) m → ∃ ds, m = .node k ds ∧ Pairwise E cs ds

section
variable {τ₁ τ₂ : Type} {E : Node → Node → Prop} {S : Progs τ₁ τ₂} {g₁ : Node → StateM τ₁ Node} {g₂ : Node → StateM τ₂ Node}

theorem Linked.span (L : Linked S E g₁ g₂) {o c : TokRef} {m : Node} (h : E (.spanOf (.tok o) (.tok c)) m) :
    m = .spanOf (.tok o) (.tok c) ∧ E (.tok o) (.tok o) ∧ E (.tok c) (.tok c) := by
  obtain ⟨ds, rfl, h'⟩ := L.container rfl h
  obtain ⟨x, ds, rfl, hx, h'⟩ := h'.cons
  obtain ⟨y, ds, rfl, hy, h'⟩ := h'.cons
  obtain rfl := h'.nil
  obtain rfl := L.tok hx
  obtain rfl := L.tok hy
  exact ⟨rfl, hx, hy⟩

theorem Linked.all (L : Linked S E g₁ g₂) : ∀ (cs ds : List Node), Pairwise E cs ds →
    S.rel (goAll (cs.map (Vm.of g₁))) (goAll (ds.map (Vm.of g₂)))
  | [], ds, h => by obtain rfl := h.nil; exact S.pure _
  | c :: cs, ds, h => by
    obtain ⟨d, ds, rfl, hd, h⟩ := h.cons
    exact S.bind (L.sim hd) fun _ => S.bind (Linked.all L cs ds h) fun _ => S.pure _

theorem Linked.action (L : Linked S E g₁ g₂) (cs ds : List Node) (h : Pairwise E cs ds) :
    S.rel (action (cs.map g₁) 0) (action (ds.map g₂) 0) := by
  cases cs with
  | nil => obtain rfl := h.nil; exact S.pure _
  | cons c cs =>
    obtain ⟨d, ds, rfl, hd, h⟩ := h.cons
    exact L.sim hd

theorem Spec.Pairwise.tail {cs ds : List Node} (h : Pairwise E cs ds) : Pairwise E cs.tail ds.tail := by
  cases cs with
  | nil => obtain rfl := h.nil; exact pairwise_nil
  | cons c cs =>
    obtain ⟨d, ds, rfl, hd, h⟩ := h.cons
    exact h

theorem map_tail' {α β : Type} (g : α → β) (l : List α) : (l.map g).tail = l.tail.map g := by cases l <;> rfl

theorem Linked.names (L : Linked S E g₁ g₂) {a : Ty} : ∀ (ps qs as as' bs bs' : List Node), (∀ p ∈ ps, HasTy R₀ (.pair a) p) →
    Pairwise E ps qs → Pairwise E as as' → Pairwise E bs bs' →
    S.rel (rebuildNames (ps.map fun p => p.children.map g₁) (as.map g₁) (bs.map g₁))
      (rebuildNames (qs.map fun p => p.children.map g₂) (as'.map g₂) (bs'.map g₂))
  | [], qs, as, as', bs, bs', _, h, _, _ => by obtain rfl := h.nil; exact S.pure _
  | p :: ps, qs, as, as', bs, bs', hp, h, ha, hb => by
    obtain ⟨q, qs, rfl, hq, h⟩ := h.cons
    have ih := Linked.names L ps qs as.tail as'.tail bs.tail bs'.tail (fun q hq => hp q (List.mem_cons_of_mem _ hq)) h ha.tail
      hb.tail
    have hpp := hp p List.mem_cons_self
    rcases hasTy_pair.1 hpp with ⟨x, _, rfl⟩ | ⟨x, t, _, _, rfl⟩
    · obtain ⟨ds, rfl, h'⟩ := L.container rfl hq
      obtain ⟨y, ds, rfl, hx, h'⟩ := h'.cons
      obtain rfl := h'.nil
      simp only [rebuildNames, List.map_cons, List.map_nil, Node.children_node, FM.action, map_tail']
      exact S.bind (L.sim hx) fun _ => S.bind (L.action _ _ ha) fun _ => S.bind (L.action _ _ hb) fun _ =>
        S.bind (S.pure _) fun _ => S.bind ih fun _ => S.pure _
    · obtain ⟨ds, rfl, h'⟩ := L.container rfl hq
      obtain ⟨y, ds, rfl, hx, h'⟩ := h'.cons
      obtain ⟨z, ds, rfl, ht, h'⟩ := h'.cons
      obtain rfl := h'.nil
      simp only [rebuildNames, List.map_cons, List.map_nil, Node.children_node, FM.action, map_tail']
      exact S.bind (L.sim hx) fun _ => S.bind (L.action _ _ ha) fun _ => S.bind (L.action _ _ hb) fun _ =>
        S.bind (L.sim ht) fun _ => S.bind (S.pure _) fun _ => S.bind ih fun _ => S.pure _

theorem Linked.rebuild (f : Features) (L : Linked S E g₁ g₂) {k : Kind} {cs ds : List Node} (hv : View R₀ k cs)
    (h : Pairwise E cs ds) :
    S.rel (rebuildNode f k (cs.map (Vm.of g₁))) (rebuildNode f k (ds.map (Vm.of g₂))) := by
  cases hv with
  | plain hl =>
    rw [rebuild_plain f hl, rebuild_plain f hl]
    exact S.bind (L.all _ _ h) fun _ => S.pure _
  | wrap hk o c x =>
    obtain ⟨d1, ds, rfl, h1, h⟩ := h.cons
    obtain ⟨d2, ds, rfl, h2, h⟩ := h.cons
    obtain rfl := h.nil
    obtain ⟨rfl, ho, hc⟩ := L.span h1
    simp only [List.map_cons, List.map_nil, rebuild_wrap f hk, Vm.of, children_span, action]
    exact S.bind (L.sim ho) fun _ => S.bind (L.sim h2) fun _ => S.bind (L.sim hc) fun _ => S.pure _
  | wrapSecond hk b o c x =>
    obtain ⟨d0, ds, rfl, h0, h⟩ := h.cons
    obtain ⟨d1, ds, rfl, h1, h⟩ := h.cons
    obtain ⟨d2, ds, rfl, h2, h⟩ := h.cons
    obtain rfl := h.nil
    obtain ⟨rfl, ho, hc⟩ := L.span h1
    simp only [List.map_cons, List.map_nil, rebuild_wrapSecond f hk, Vm.of, children_span, action]
    exact S.bind (L.sim h0) fun _ => S.bind (L.sim ho) fun _ => S.bind (L.sim h2) fun _ => S.bind (L.sim hc) fun _ => S.pure _
  | fieldExprKey o c x e w =>
    obtain ⟨d1, ds, rfl, h1, h⟩ := h.cons
    obtain ⟨d2, ds, rfl, h2, h⟩ := h.cons
    obtain ⟨d3, ds, rfl, h3, h⟩ := h.cons
    obtain ⟨d4, ds, rfl, h4, h⟩ := h.cons
    obtain rfl := h.nil
    obtain ⟨rfl, ho, hc⟩ := L.span h1
    simp only [List.map_cons, List.map_nil, rebuildNode, Vm.of, children_span, action]
    exact S.bind (L.sim ho) fun _ => S.bind (L.sim h2) fun _ => S.bind (L.sim hc) fun _ => S.bind (L.sim h3) fun _ =>
      S.bind (L.sim h4) fun _ => S.pure _
  | tyArray o c a x =>
    obtain ⟨d1, ds, rfl, h1, h⟩ := h.cons
    obtain ⟨d2, ds, rfl, h2, h⟩ := h.cons
    obtain ⟨d3, ds, rfl, h3, h⟩ := h.cons
    obtain rfl := h.nil
    obtain ⟨rfl, ho, hc⟩ := L.span h1
    simp only [List.map_cons, List.map_nil, rebuildNode, Vm.of, children_span, action]
    exact S.bind (L.sim ho) fun _ => S.bind (L.sim h2) fun _ => S.bind (L.sim h3) fun _ => S.bind (L.sim hc) fun _ => S.pure _
  | tyCallback g o c x a r =>
    obtain ⟨d0, ds, rfl, h0, h⟩ := h.cons
    obtain ⟨d1, ds, rfl, h1, h⟩ := h.cons
    obtain ⟨d2, ds, rfl, h2, h⟩ := h.cons
    obtain ⟨d3, ds, rfl, h3, h⟩ := h.cons
    obtain ⟨d4, ds, rfl, h4, h⟩ := h.cons
    obtain rfl := h.nil
    obtain ⟨rfl, ho, hc⟩ := L.span h1
    simp only [List.map_cons, List.map_nil, rebuildNode, Vm.of, children_span, action]
    exact S.bind (L.sim h0) fun _ => S.bind (L.sim ho) fun _ => S.bind (L.sim h2) fun _ => S.bind (L.sim hc) fun _ =>
      S.bind (L.sim h3) fun _ => S.bind (L.sim h4) fun _ => S.pure _
  | typeInst o p i j x =>
    obtain ⟨d1, ds, rfl, h1, h⟩ := h.cons
    obtain ⟨d2, ds, rfl, h2, h⟩ := h.cons
    obtain ⟨d3, ds, rfl, h3, h⟩ := h.cons
    obtain rfl := h.nil
    obtain ⟨rfl, ho, hp⟩ := L.span h1
    obtain ⟨rfl, hi, hj⟩ := L.span h2
    simp only [List.map_cons, List.map_nil, rebuildNode, Vm.of, children_span, action]
    exact S.bind (L.sim ho) fun _ => S.bind (L.sim hi) fun _ => S.bind (L.sim h3) fun _ => S.bind (L.sim hj) fun _ =>
      S.bind (L.sim hp) fun _ => S.pure _
  | numericFor f' i e s' c t c' p d b n ty =>
    obtain ⟨d1, ds, rfl, h1, h⟩ := h.cons
    obtain ⟨d2, ds, rfl, h2, h⟩ := h.cons
    obtain ⟨d3, ds, rfl, h3, h⟩ := h.cons
    obtain ⟨d4, ds, rfl, h4, h⟩ := h.cons
    obtain ⟨d5, ds, rfl, h5, h⟩ := h.cons
    obtain ⟨d6, ds, rfl, h6, h⟩ := h.cons
    obtain ⟨d7, ds, rfl, h7, h⟩ := h.cons
    obtain ⟨d8, ds, rfl, h8, h⟩ := h.cons
    obtain ⟨d9, ds, rfl, h9, h⟩ := h.cons
    obtain ⟨d10, ds, rfl, h10, h⟩ := h.cons
    obtain ⟨d11, ds, rfl, h11, h⟩ := h.cons
    obtain ⟨d12, ds, rfl, h12, h⟩ := h.cons
    obtain rfl := h.nil
    simp only [List.map_cons, List.map_nil, rebuildNode, Vm.of]
    exact S.bind (L.sim h1) fun _ => S.bind (L.sim h2) fun _ => S.bind (L.sim h12) fun _ => S.bind (L.sim h3) fun _ =>
      S.bind (L.sim h4) fun _ => S.bind (L.sim h5) fun _ => S.bind (L.sim h6) fun _ => S.bind (L.sim h7) fun _ =>
      S.bind (L.sim h8) fun _ => S.bind (L.sim h9) fun _ => S.bind (L.sim h10) fun _ => S.bind (L.sim h11) fun _ => S.pure _
  | genericFor f' ps i e d b n ts hp ht =>
    obtain ⟨d1, ds, rfl, h1, h⟩ := h.cons
    obtain ⟨d2, ds, rfl, h2, h⟩ := h.cons
    obtain ⟨d3, ds, rfl, h3, h⟩ := h.cons
    obtain ⟨d4, ds, rfl, h4, h⟩ := h.cons
    obtain ⟨d5, ds, rfl, h5, h⟩ := h.cons
    obtain ⟨d6, ds, rfl, h6, h⟩ := h.cons
    obtain ⟨d7, ds, rfl, h7, h⟩ := h.cons
    obtain ⟨d8, ds, rfl, h8, h⟩ := h.cons
    obtain rfl := h.nil
    obtain ⟨qs, rfl, hq⟩ := L.container rfl h2
    obtain ⟨us, rfl, hu⟩ := L.container rfl h8
    have hn := L.names ps qs [] [] ts us hp hq pairwise_nil hu
    simp only [List.map_nil] at hn
    simp only [List.map_cons, List.map_nil, rebuildNode, Vm.of, Node.children_node]
    exact S.bind (L.sim h1) fun _ => S.bind hn fun _ => S.bind (L.sim h3) fun _ => S.bind (L.sim h4) fun _ =>
      S.bind (L.sim h5) fun _ => S.bind (L.sim h6) fun _ => S.bind (L.sim h7) fun _ => S.pure _
  | funcBody g' o c ps ts r b n hp ht =>
    obtain ⟨d1, ds, rfl, h1, h⟩ := h.cons
    obtain ⟨d2, ds, rfl, h2, h⟩ := h.cons
    obtain ⟨d3, ds, rfl, h3, h⟩ := h.cons
    obtain ⟨d4, ds, rfl, h4, h⟩ := h.cons
    obtain ⟨d5, ds, rfl, h5, h⟩ := h.cons
    obtain ⟨d6, ds, rfl, h6, h⟩ := h.cons
    obtain ⟨d7, ds, rfl, h7, h⟩ := h.cons
    obtain rfl := h.nil
    obtain ⟨rfl, ho, hc⟩ := L.span h2
    obtain ⟨qs, rfl, hq⟩ := L.container rfl h3
    obtain ⟨us, rfl, hu⟩ := L.container rfl h4
    have hn := L.names ps qs [] [] ts us hp hq pairwise_nil hu
    simp only [List.map_nil] at hn
    simp only [List.map_cons, List.map_nil, rebuildNode, Vm.of, Node.children_node, children_span, action]
    exact S.bind (L.sim h1) fun _ => S.bind (L.sim ho) fun _ => S.bind hn fun _ => S.bind (L.sim hc) fun _ =>
      S.bind (L.sim h5) fun _ => S.bind (L.sim h6) fun _ => S.bind (L.sim h7) fun _ => S.pure _
  | localAssignment l ts ps as e x hp ht ha =>
    obtain ⟨d1, ds, rfl, h1, h⟩ := h.cons
    obtain ⟨d2, ds, rfl, h2, h⟩ := h.cons
    obtain ⟨d3, ds, rfl, h3, h⟩ := h.cons
    obtain ⟨d4, ds, rfl, h4, h⟩ := h.cons
    obtain ⟨d5, ds, rfl, h5, h⟩ := h.cons
    obtain ⟨d6, ds, rfl, h6, h⟩ := h.cons
    obtain rfl := h.nil
    obtain ⟨us, rfl, hu⟩ := L.container rfl h2
    obtain ⟨qs, rfl, hq⟩ := L.container rfl h3
    obtain ⟨vs, rfl, hw⟩ := L.container rfl h4
    have hn := L.names ps qs as vs ts us hp hq hw hu
    simp only [List.map_cons, List.map_nil, rebuildNode, Vm.of, Node.children_node]
    exact S.bind (L.sim h1) fun _ => S.bind hn fun _ => S.bind (L.sim h5) fun _ => S.bind (L.sim h6) fun _ => S.pure _

end

/-! ## Replaced nodes -/

variable {pre : Cat → Node → Node}

theorem Spec.ExpandsIn.succ : ∀ {d : Nat} {n m : Node}, ExpandsIn pre d n m → ExpandsIn pre (d + 1) n m
  | _, _, _, .tok _ _ => .tok _ _
  | d + 1, _, _, .node _ k cs k' cs' ds h1 h2 h3 => .node _ k cs k' cs' ds h1 h2 fun p hp => (h3 p hp).succ

theorem start_container (pre : Cat → Node → Node) {k : Kind} (h : k.cat = none) (n : Node) : start pre k n = n := by
  simp [start, h]

theorem start_typed (hp : KeepsTypes R₀ pre) {a : Ty} {k : Kind} {cs : List Node} (h : HasTy R₀ a (.node k cs)) :
    HasTy R₀ a (start pre k (.node k cs)) := by
  unfold start
  cases hk : k.cat with
  | none => exact h
  | some c =>
    dsimp only
    split
    · cases a with
      | cat c' =>
        obtain ⟨k', cs', h1, h2, h3⟩ := hasTy_cat.1 h
        cases h3
        obtain rfl : c = c' := by simpa [hk] using h1
        exact hp c _ h
      | _ => cases k <;> simp [HasTy, Kind.cat] at h hk
    · exact h

theorem start_typed' (hp : KeepsTypes R₀ pre) {k : Kind} {cs : List Node} (h : Typed R₀ (.node k cs)) :
    Typed R₀ (start pre k (.node k cs)) := by
  obtain ⟨a, h⟩ := h
  exact ⟨a, start_typed hp h⟩

theorem start_cat (hp : KeepsTypes R₀ pre) {k k' : Kind} {cs cs' : List Node} (h : Typed R₀ (.node k cs))
    (hs : start pre k (.node k cs) = .node k' cs') : k'.cat = k.cat := by
  cases hk : k.cat with
  | none => rw [start_container pre hk] at hs; cases hs; exact hk
  | some c =>
    obtain ⟨a, h⟩ := h
    have h' := start_typed hp h
    rw [hs] at h'
    cases a with
    | cat c' =>
      obtain ⟨_, _, h1, _, h3⟩ := hasTy_cat.1 h
      cases h3
      obtain ⟨_, _, h4, _, h6⟩ := hasTy_cat.1 h'
      cases h6
      rw [h4, ← h1, hk]
    | _ => cases k <;> simp [HasTy, Kind.cat] at h hk

theorem cat_of_span {k : Kind} (h : k.cat = none) (hk : k.hook = none) : k ≠ .span := by
  rintro rfl; simp [Kind.hook] at hk

theorem hook_of_cat {k k' : Kind} (h : k'.cat = k.cat) (hk : k.cat ≠ none) : k'.hook = k.hook := by
  rcases k.hook_cat with rfl | h1
  · simp [Kind.cat] at hk
  · rcases k'.hook_cat with rfl | h2
    · rw [← h] at hk; simp [Kind.cat] at hk
    · rw [h1, h2, h]

/-- The visitor replaces nodes by `pre`, whatever its state; its state changes in a way that does not depend on the node. -/
structure Replaces (v : ChangingVisitor σ) (pre : Cat → Node → Node) (eff : Ev → σ → σ) : Prop where
  enter : ∀ c n s, v.enter (.enter c) n s = (pre c n, eff (.enter c) s)
  span : ∀ n s, v.enter .enterSpan n s = (n, eff .enterSpan s)

/-- The same visitor, without replacing nodes. -/
def ChangingVisitor.afterwards (v : ChangingVisitor σ) (eff : Ev → σ → σ) : MutVisitor σ where
  toTokenVisitor := v.toTokenVisitor
  enter e _ := modify (eff e)
  leave := v.leave

section
variable {v : ChangingVisitor σ} {eff : Ev → σ → σ}

theorem Node.visitChanging_node (f : Features) (v : ChangingVisitor σ) (fuel : Nat) (k : Kind) (cs : List Node) :
    (Node.node k cs).visitChanging f v (fuel + 1) =
      match k.hook with
      | Option.none => rebuildNode f k (cs.map (Vm.of (Node.visitChanging f v fuel)))
      | Option.some (a, b) => (do
        let n ← callHook (v.enter a (.node k cs)) (.node k cs)
        let n ← match n with
          | .node k cs => rebuildNode f k (cs.map (Vm.of (Node.visitChanging f v fuel)))
          | .tok t => pure (.tok t)
        callHook (v.leave b n) n) := by
  rw [← Vm.at_eq]; rfl

theorem visitChanging_expands (f : Features) (hv : Replaces v pre eff) (hp : KeepsTypes R₀ pre) :
    ∀ (d : Nat) (n m : Node), Typed R₀ n → ExpandsIn pre d n m → ∀ fuel, d ≤ fuel →
      Sim (n.visitChanging f v fuel) (m.visitMutWith f (v.afterwards eff))
  | 0, _, _, _, h, _, _ => by cases h
  | d + 1, n, m, hty, h, 0, hf => by omega
  | d + 1, n, m, hty, h, fuel + 1, hf => by
    have ih := visitChanging_expands f hv hp d
    have L : Linked sims (fun n m => Typed R₀ n ∧ ExpandsIn pre d n m) (Node.visitChanging f v fuel)
        (Node.visitMutWith f (v.afterwards eff)) := by
      refine ⟨fun h => ih _ _ h.1 h.2 fuel (by omega), fun h => by cases h.2; rfl, ?_⟩
      intro k cs m hk h
      obtain ⟨hty, h⟩ := h
      cases h with
      | node d _ _ k' cs' ds h1 h2 h3 =>
        rw [start_container pre hk] at h1
        cases h1
        exact ⟨ds, rfl, h2, fun p hp => ⟨hty.cases.1 p.1 (List.of_mem_zip hp).1, (h3 p hp).succ⟩⟩
    cases h with
    | tok d t => exact fun _ => rfl
    | node d k cs k' cs' ds h1 h2 h3 =>
      have ht' : Typed R₀ (.node k' cs') := h1 ▸ start_typed' hp hty
      have hr : Sim _ _ := L.rebuild f ht'.view ⟨h2, fun p hp => ⟨ht'.cases.1 p.1 (List.of_mem_zip hp).1, h3 p hp⟩⟩
      have hc := start_cat hp hty h1
      have hh : k'.hook = k.hook := by
        cases hk : k.cat with
        | none => rw [start_container pre hk] at h1; cases h1; rfl
        | some c => exact hook_of_cat hc (by simp [hk])
      rw [Node.visitMutWith_node, Node.visitChanging_node, MutVisitor.around, hh]
      have h1' := h1
      unfold start at h1'
      rcases k.hook_cat with rfl | hk
      · simp only [Kind.cat] at h1'
        cases h1'
        simp only [Kind.hook]
        intro s
        simp only [run_bind, callHook, hv.span, hr _]
        rfl
      · rw [hk]
        cases hk' : k.cat with
        | none =>
          simp only [hk'] at h1'
          cases h1'
          simpa [hk'] using hr
        | some c =>
          simp only [hk'] at h1' ⊢
          cases hc' : hasHooks c with
          | false =>
            simp [hc'] at h1' ⊢
            obtain ⟨rfl, rfl⟩ := h1'
            exact hr
          | true =>
            simp [hc'] at h1' ⊢
            intro s
            simp only [run_bind, callHook, hv.enter, h1', hr _]
            rfl

/-- A visitor that does not replace nodes. -/
theorem visitChanging_keeps (f : Features) (v : MutVisitor σ) : ∀ (fuel : Nat) (n : Node), Typed R₀ n → n.size ≤ fuel →
    Sim (n.visitChanging f v.changing fuel) (n.visitMutWith f v)
  | 0, .tok _, _, hf => by simp at hf
  | 0, .node _ _, _, hf => by simp at hf
  | fuel + 1, .tok t, _, _ => fun _ => rfl
  | fuel + 1, .node k cs, hty, hf => by
    have hsz : ∀ (cs : List Node), ∀ c ∈ cs, c.size ≤ Node.size.sizes cs := by
      intro cs
      induction cs with
      | nil => simp
      | cons d cs ih =>
        intro c hc
        simp only [Node.size.sizes]
        rcases List.mem_cons.1 hc with rfl | hc
        · omega
        · have := ih c hc; omega
    have L : Linked sims (fun n m => n = m ∧ Typed R₀ n ∧ n.size ≤ fuel) (Node.visitChanging f v.changing fuel)
        (Node.visitMutWith f v) := by
      refine ⟨fun h => h.1 ▸ visitChanging_keeps f v fuel _ h.2.1 h.2.2, fun h => h.1.symm, ?_⟩
      rintro k cs m hk ⟨rfl, hty, hs⟩
      refine ⟨cs, rfl, rfl, fun p hp => ?_⟩
      rw [zip_self] at hp
      obtain ⟨c, hc, rfl⟩ := List.mem_map.1 hp
      refine ⟨rfl, hty.cases.1 c hc, ?_⟩
      have := hsz cs c hc
      simp only [Node.size] at hs
      dsimp only
      omega
    have hr : Sim _ _ := L.rebuild f hty.view (ds := cs) ⟨rfl, fun p hp => by
      rw [zip_self] at hp
      obtain ⟨c, hc, rfl⟩ := List.mem_map.1 hp
      refine ⟨rfl, hty.cases.1 c hc, ?_⟩
      have := hsz cs c hc
      simp only [Node.size] at hf
      dsimp only
      omega⟩
    rw [Node.visitMutWith_node, Node.visitChanging_node, MutVisitor.around]
    cases k.hook with
    | none => exact hr
    | some h =>
      intro s
      have he : ∀ e n, v.changing.enter e n s = (n, (v.enter e n s).2) := fun _ _ => rfl
      simp only [run_bind, callHook, he, hr _]
      rfl

end

/-- Replacing nodes keeps types. -/
theorem Spec.ExpandsIn.hasTy (hp : KeepsTypes R₀ pre) : ∀ (d : Nat) (n m : Node) (a : Ty), ExpandsIn pre d n m →
    HasTy R₀ a n → HasTy R₀ a m
  | 0, _, _, _, h, _ => by cases h
  | d + 1, n, m, a, h, hty => by
    have ih := ExpandsIn.hasTy hp d
    have ihs : ∀ (as : List Ty) (cs ds : List Node), Pairwise (ExpandsIn pre d) cs ds → HasTys R₀ as cs → HasTys R₀ as ds := by
      intro as
      induction as with
      | nil => intro cs ds h ht; obtain rfl := hasTys_nil.1 ht; obtain rfl := h.nil; exact ht
      | cons a as iha =>
        intro cs ds h ht
        obtain ⟨c, cs, h1, h2, rfl⟩ := hasTys_cons.1 ht
        obtain ⟨e, ds, rfl, he, h⟩ := h.cons
        exact hasTys_cons.2 ⟨e, ds, ih _ _ _ he h1, iha _ _ h h2, rfl⟩
    have iha : ∀ (a : Ty) (cs ds : List Node), Pairwise (ExpandsIn pre d) cs ds → AllTy R₀ a cs → AllTy R₀ a ds := by
      intro a cs ds h ht
      rw [allTy_iff] at ht ⊢
      intro e he
      obtain ⟨i, hi, rfl⟩ := List.getElem_of_mem he
      have hi' : i < cs.length := by rw [h.1]; exact hi
      refine ih cs[i] _ a (h.2 (cs[i], ds[i]) ?_) (ht _ (List.getElem_mem _))
      have : (cs.zip ds)[i]'(by simp; omega) = (cs[i], ds[i]) := by simp
      rw [← this]
      exact List.getElem_mem _
    cases h with
    | tok d t => exact hty
    | node d k cs k' cs' ds h1 h2 h3 =>
      have h' := start_typed hp hty
      rw [h1] at h'
      have hw : Pairwise (ExpandsIn pre d) cs' ds := ⟨h2, h3⟩
      cases a with
      | tok => simp at h'
      | cat c =>
        obtain ⟨_, _, h4, h5, h6⟩ := hasTy_cat.1 h'
        cases h6
        exact hasTy_cat.2 ⟨_, _, h4, ihs _ _ _ hw h5, rfl⟩
      | _ =>
        cases k' <;> simp only [HasTy] at h' ⊢
        all_goals first
          | exact ihs _ _ _ hw h'
          | exact iha _ _ _ hw h'
          | (subst h'; exact hw.nil)

/-- If the parts of what replaces a node are smaller than the node, replacing ends. -/
theorem expands_of_measure (hp : KeepsTypes R₀ pre) (size : Node → Nat)
    (hsz : ∀ k cs, ∀ c ∈ (start pre k (.node k cs)).children, size c < size (.node k cs)) :
    ∀ (d : Nat) (n : Node), Typed R₀ n → size n < d → ∃ m, ExpandsIn pre d n m
  | 0, _, _, h => by omega
  | d + 1, .tok t, _, _ => ⟨_, .tok _ _⟩
  | d + 1, .node k cs, hty, h => by
    have hs := start_typed' hp hty
    have hz := hsz k cs
    cases hr : start pre k (.node k cs) with
    | tok t =>
      rw [hr] at hs
      obtain ⟨a, hs⟩ := hs
      obtain ⟨b, hty⟩ := hty
      have := start_typed hp hty
      rw [hr] at this
      cases b <;> simp [HasTy] at this
      simp at hty
    | node k' cs' =>
      rw [hr] at hz hs
      have ih : ∀ cs', (∀ c ∈ cs', Typed R₀ c ∧ size c < d) → ∃ ds, Pairwise (ExpandsIn pre d) cs' ds := by
        intro cs'
        induction cs' with
        | nil => exact fun _ => ⟨[], pairwise_nil⟩
        | cons c cs' ih =>
          intro h
          obtain ⟨e, he⟩ := expands_of_measure hp size hsz d c (h c List.mem_cons_self).1 (h c List.mem_cons_self).2
          obtain ⟨ds, hds⟩ := ih fun c hc => h c (List.mem_cons_of_mem _ hc)
          exact ⟨e :: ds, pairwise_cons he hds⟩
      obtain ⟨ds, h1, h2⟩ := ih cs' fun c hc => ⟨hs.cases.1 c hc, by have := hz c hc; omega⟩
      exact ⟨_, .node d k cs k' cs' ds hr h1 h2⟩

/-! ## More fuel -/

/-- `a` does nothing once the fuel is used up. -/
def stricts : Progs (Option σ) (Option σ) where
  rel a _ := (a none).2 = none
  pure _ := rfl
  bind := by
    intro α β a b p q h hp
    show (p (a none).1 (a none).2).2 = none
    rw [h]; exact hp _

/-- If `a` ends, `b` ends alike. -/
def LeadsTo {α : Type} (a b : StateM (Option σ) α) : Prop :=
  (a none).2 = none ∧ (b none).2 = none ∧ ∀ s, (a s).2 ≠ none → b s = a s

theorem LeadsTo.bind {α β : Type} {a b : StateM (Option σ) α} {p q : α → StateM (Option σ) β} (h : LeadsTo a b)
    (hp : ∀ x, LeadsTo (p x) (q x)) : LeadsTo (a >>= p) (b >>= q) := by
  refine ⟨?_, ?_, fun s hs => ?_⟩
  · rw [run_bind, h.1]; exact (hp _).1
  · rw [run_bind, h.2.1]; exact (hp _).2.1
  · rw [run_bind] at hs ⊢
    have ha : (a s).2 ≠ none := by
      intro he
      rw [he] at hs
      exact hs (hp _).1
    rw [run_bind, h.2.2 s ha]
    exact (hp _).2.2 _ hs

def leads : Progs (Option σ) (Option σ) where
  rel := LeadsTo
  pure _ := ⟨rfl, rfl, fun _ _ => rfl⟩
  bind := LeadsTo.bind

theorem LeadsTo.call {α : Type} (m : StateM σ α) (x : α) : LeadsTo (callHook m x) (callHook m x) :=
  ⟨rfl, rfl, fun _ _ => rfl⟩

theorem linked_self {τ₁ τ₂ : Type} {S : Progs τ₁ τ₂} {g₁ : Node → StateM τ₁ Node} {g₂ : Node → StateM τ₂ Node}
    (h : ∀ n, Typed R₀ n → S.rel (g₁ n) (g₂ n)) : Linked S (fun n m => n = m ∧ Typed R₀ n) g₁ g₂ := by
  refine ⟨fun he => he.1 ▸ h _ he.2, fun he => he.1.symm, ?_⟩
  rintro k cs m hk ⟨rfl, hty⟩
  refine ⟨cs, rfl, rfl, fun p hp => ?_⟩
  rw [zip_self] at hp
  obtain ⟨c, hc, rfl⟩ := List.mem_map.1 hp
  exact ⟨rfl, hty.cases.1 c hc⟩

theorem rebuild_self {τ₁ τ₂ : Type} {S : Progs τ₁ τ₂} {g₁ : Node → StateM τ₁ Node} {g₂ : Node → StateM τ₂ Node}
    (f : Features) (h : ∀ n, Typed R₀ n → S.rel (g₁ n) (g₂ n)) {k : Kind} {cs : List Node} (hty : Typed R₀ (.node k cs)) :
    S.rel (rebuildNode f k (cs.map (Vm.of g₁))) (rebuildNode f k (cs.map (Vm.of g₂))) := by
  refine (linked_self h).rebuild f hty.view ⟨rfl, fun p hp => ?_⟩
  rw [zip_self] at hp
  obtain ⟨c, hc, rfl⟩ := List.mem_map.1 hp
  exact ⟨rfl, hty.cases.1 c hc⟩

theorem visitChanging_strict (f : Features) (v : ChangingVisitor σ) : ∀ (fuel : Nat) (n : Node), Typed R₀ n →
    (n.visitChanging f v fuel none).2 = none
  | 0, _, _ => rfl
  | fuel + 1, .tok _, _ => rfl
  | fuel + 1, .node k cs, hty => by
    have hr : (rebuildNode f k (cs.map (Vm.of (Node.visitChanging f v fuel))) none).2 = none :=
      rebuild_self (S := stricts) (g₂ := Node.visitChanging f v fuel) f (fun n hn => visitChanging_strict f v fuel n hn) hty
    rw [Node.visitChanging_node]
    cases k.hook with
    | none => exact hr
    | some h =>
      simp only [run_bind, callHook, hr]

theorem visitChanging_succ (f : Features) (v : ChangingVisitor σ)
    (hv : ∀ e n s, Typed R₀ n → Typed R₀ (v.enter e n s).1) : ∀ (fuel : Nat) (n : Node), Typed R₀ n →
    LeadsTo (n.visitChanging f v fuel) (n.visitChanging f v (fuel + 1))
  | 0, n, hty => ⟨rfl, visitChanging_strict f v 1 n hty, fun _ h => absurd rfl h⟩
  | fuel + 1, .tok t, _ => .call _ _
  | fuel + 1, .node k cs, hty => by
    have ih := visitChanging_succ f v hv fuel
    have hr : ∀ {k cs}, Typed R₀ (.node k cs) → LeadsTo _ _ := fun h => rebuild_self (S := leads) f ih h
    refine ⟨visitChanging_strict f v _ _ hty, visitChanging_strict f v _ _ hty, ?_⟩
    rw [Node.visitChanging_node, Node.visitChanging_node]
    cases k.hook with
    | none => exact (hr hty).2.2
    | some h =>
      intro s hs
      cases s with
      | none =>
        simp only [run_bind, callHook, (hr hty).1, ne_eq, not_true] at hs
      | some s =>
        simp only [run_bind] at hs ⊢
        have he := hv h.1 _ s hty
        simp only [callHook] at hs ⊢
        cases hn : (v.enter h.1 (.node k cs) s).1 with
        | tok t => simp only [hn]
        | node k' cs' =>
          rw [hn] at he hs
          simp only [hn]
          exact (LeadsTo.bind (hr he) fun _ => .call _ _).2.2 _ hs

theorem visitChanging_more (f : Features) (v : ChangingVisitor σ)
    (hv : ∀ e n s, Typed R₀ n → Typed R₀ (v.enter e n s).1) {n : Node} (hty : Typed R₀ n) {fuel fuel' : Nat}
    (hf : fuel ≤ fuel') (s : Option σ) (hs : (n.visitChanging f v fuel s).2 ≠ none) :
    n.visitChanging f v fuel' s = n.visitChanging f v fuel s := by
  induction hf with
  | refl => rfl
  | step _ ih => rw [← ih]; exact (visitChanging_succ f v hv _ n hty).2.2 s (ih ▸ hs)

end FM
