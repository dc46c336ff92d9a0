import Verif.Proofs.Ast.Visit
import Verif.Proofs.Ast.Pointwise

/-!
# Hooks of mutable visitors
-/

namespace FM
open Spec

variable {R₀ : TokRef → Prop} {σ : Type}

/-! ## Calls in print order -/

/-- The hooks of a node, given those of its fields, in print order. -/
def Kind.walk (k : Kind) (rs : List (R Ev)) : List Ev :=
  match k.hook with
  | some (a, b) => a :: arrange k.layout rs ++ [b]
  | none => arrange k.layout rs

def Node.walk (n : Node) : List Ev := (n.fold TokRef.visit Kind.walk).all

@[simp] theorem Node.walk_tok (t : TokRef) : (Node.tok t).walk = t.visit := rfl

theorem Node.walk_node (k : Kind) (cs : List Node) : (Node.node k cs).walk = k.walk (cs.map (R.of Node.walk)) :=
  Node.fold_all ..

theorem Kind.walk_around (k : Kind) (rs : List (R Ev)) :
    k.walk rs = (k.hook.map Prod.fst).toList ++ arrange k.layout rs ++ (k.hook.map Prod.snd).toList := by
  unfold Kind.walk; split <;> simp_all

theorem recorder_tokens : ∀ (ts : List Token) (s : List Ev),
    visitTokens recorder.toTokenVisitor ts s = (ts, s ++ ts.flatMap Token.visit)
  | [], s => by simp [visitTokens]
  | t :: ts, s => by
    simp only [visitTokens, run_bind, run_pure, List.flatMap_cons]
    have h1 : t.visitMut recorder.toTokenVisitor s = (t, s ++ t.visit) := by
      unfold Token.visitMut Token.visit
      simp only [run_bind]
      cases h : t.type.noHook <;> simp [recorder, h]
    rw [h1, recorder_tokens ts]
    simp

theorem recorder_token (t : Token) (s : List Ev) : t.visitMut recorder.toTokenVisitor s = (t, s ++ t.visit) := by
  unfold Token.visitMut Token.visit
  simp only [run_bind]
  cases h : t.type.noHook <;> simp [recorder, h]

theorem recorder_ref (t : TokRef) (s : List Ev) : t.visitMut recorder.toTokenVisitor s = (t, s ++ t.visit) := by
  have hr : ∀ s, recorder.reference t s = (t, s ++ [.token t.token]) := fun _ => rfl
  have he : ∀ s, recorder.eof t s = (t, s ++ [.eof t]) := fun _ => rfl
  unfold TokRef.visitMut TokRef.visit
  by_cases h : t.token.type = .eof
  · simp [recorder_tokens, recorder_token, hr, he, h]
  · simp [recorder_tokens, recorder_token, hr, h]

theorem recorder_around (k : Kind) (n : Node) (m : StateM (List Ev) Node) (s : List Ev) (es : List Ev)
    (h : ∀ s, (m s).2 = s ++ es) :
    (recorder.around k n m s).2 = s ++ ((k.hook.map Prod.fst).toList ++ es ++ (k.hook.map Prod.snd).toList) := by
  unfold MutVisitor.around
  cases k.hook with
  | none => simp [h]
  | some p => simp [recorder, h]

def Logs (g : Node → StateM (List Ev) Node) (n : Node) : Prop := ∀ s, (g n s).2 = s ++ n.walk

theorem goAll_logs (g : Node → StateM (List Ev) Node) : ∀ (cs : List Node), (∀ c ∈ cs, Logs g c) →
    ∀ s, (goAll (cs.map (Vm.of g)) s).2 = s ++ cs.flatMap Node.walk
  | [], _, s => by simp [goAll]
  | c :: cs, h, s => by
    have ih := goAll_logs g cs fun d hd => h d (List.mem_cons_of_mem _ hd)
    have hc := h c List.mem_cons_self
    simp only [goAll, List.map_cons, run_bind, run_pure, ih, Vm.of, List.flatMap_cons]
    rw [show (g c s).2 = _ from hc s]; simp

/-- The calls for a list of names. -/
def walkNames (ps as bs : List Node) : List Ev :=
  joinNames true (ps.map fun p => p.children.map Node.walk) (as.map Node.walk) (bs.map Node.walk)

theorem rebuildNames_logs {g : Node → StateM (List Ev) Node} {a : Ty} :
    ∀ (ps as bs : List Node), (∀ p ∈ ps, HasTy R₀ (.pair a) p) →
      (∀ p ∈ ps, ∀ c ∈ p.children, Logs g c) → (∀ a ∈ as, Logs g a) → (∀ b ∈ bs, Logs g b) → ∀ s,
      (rebuildNames (ps.map fun p => p.children.map g) (as.map g) (bs.map g) s).2 = s ++ walkNames ps as bs
  | [], as, bs, _, _, _, _, s => by simp [rebuildNames, walkNames, joinNames]
  | p :: ps, as, bs, hp, hc, ha, hb, s => by
    have tl : ∀ {l : List Node} {P : Node → Prop}, (∀ a ∈ l, P a) → ∀ a ∈ l.tail, P a :=
      fun h a hm => h a (List.mem_of_mem_tail hm)
    have ih := rebuildNames_logs (g := g) ps as.tail bs.tail
      (fun q hq => hp q (List.mem_cons_of_mem _ hq)) (fun q hq => hc q (List.mem_cons_of_mem _ hq)) (tl ha) (tl hb)
    have hcp := hc p List.mem_cons_self
    have mt : ∀ l : List Node, (l.map g).tail = l.tail.map g := fun l => by cases l <;> rfl
    have mt' : ∀ l : List Node, (l.map Node.walk).tail = l.tail.map Node.walk := fun l => by cases l <;> rfl
    have act : ∀ (l : List Node), (∀ a ∈ l, Logs g a) → ∀ s,
        (action (l.map g) 0 s).2 = s ++ part (l.map Node.walk) 0 := by
      intro l hl s
      cases l with
      | nil => simp [action, part]
      | cons a l => exact hl a List.mem_cons_self s
    unfold walkNames at ih ⊢
    rcases hasTy_pair.1 (hp p List.mem_cons_self) with ⟨x, _, rfl⟩ | ⟨x, t, _, _, rfl⟩
    · have hx : ∀ s, (g x s).2 = _ := hcp x (by simp)
      simp only [rebuildNames, List.map_cons, List.map_nil, Node.children_node, run_bind, run_pure, action, hx,
        act as ha, act bs hb, mt, mt', ih, joinNames, part]
      simp
    · have hx : ∀ s, (g x s).2 = _ := hcp x (by simp)
      have ht : ∀ s, (g (.tok t) s).2 = _ := hcp (.tok t) (by simp)
      simp only [rebuildNames, List.map_cons, List.map_nil, Node.children_node, run_bind, run_pure, action, hx, ht,
        act as ha, act bs hb, mt, mt', ih, joinNames, part]
      simp

theorem arrange_wrap {β : Type} (g : Node → List β) {k : Kind} (h : k.wraps = true) (o c x : Node) :
    arrange k.layout ([Node.spanOf o c, x].map (R.of g)) = g o ++ (g x ++ g c) := by
  cases k <;> simp only [Kind.wraps, Bool.false_eq_true] at h <;>
    simp [arrange, Kind.layout, Slot.run, R.nth, R.of, part, Node.spanOf]

theorem arrange_wrapSecond {β : Type} (g : Node → List β) {k : Kind} (h : k.wrapsSecond = true) (b o c x : Node) :
    arrange k.layout ([b, Node.spanOf o c, x].map (R.of g)) = g b ++ (g o ++ (g x ++ g c)) := by
  cases k <;> simp only [Kind.wrapsSecond, Bool.false_eq_true] at h <;>
    simp [arrange, Kind.layout, Slot.run, R.nth, R.of, part, Node.spanOf]

theorem recorder_logs (f : Features) (n : Node) : Typed R₀ n → Logs (Node.visitMutWith f recorder) n := by
  induction n using Node.induct3 with
  | ht t => intro _ s; simp [recorder_ref]
  | hn k cs ih ih2 ih3 =>
    intro hty s
    have ih3 : ∀ c ∈ cs, ∀ d ∈ c.children, ∀ e ∈ d.children, Logs (Node.visitMutWith f recorder) e :=
      fun c hc d hd e he => ih3 c hc d hd e he (((hty.cases.1 c hc).children d hd).children e he)
    have ih2 : ∀ c ∈ cs, ∀ d ∈ c.children, Logs (Node.visitMutWith f recorder) d := fun c hc d hd =>
      ih2 c hc d hd ((hty.cases.1 c hc).children d hd)
    have ih : ∀ c ∈ cs, Logs (Node.visitMutWith f recorder) c := fun c hc => ih c hc (hty.cases.1 c hc)
    have ih' : ∀ c ∈ cs, ∀ s, (Node.visitMutWith f recorder c s).2 = s ++ c.walk := ih
    rw [Node.visitMutWith_node, Node.walk_node, Kind.walk_around]
    refine recorder_around _ _ _ _ _ ?_
    have hview := hty.view
    clear hty s
    intro s
    cases hview with
    | plain hl =>
      rw [rebuild_plain f hl]
      simp only [run_bind, run_pure, goAll_logs _ cs ih, hl, arrange, concat_of]
    | wrap hk o c x =>
      rw [arrange_wrap _ hk]
      simp [rebuild_wrap f hk, Vm.of, action, ih' x, recorder_ref]
    | wrapSecond hk b o c x =>
      rw [arrange_wrapSecond _ hk]
      simp [rebuild_wrapSecond f hk, Vm.of, action, ih' x, ih' b, recorder_ref]
    | fieldExprKey o c x e w =>
      simp [rebuildNode, Vm.of, action, ih' x (by simp), ih' w (by simp), recorder_ref, arrange, Kind.layout, Slot.run, R.nth, R.of, part, Node.spanOf]
    | tyArray o c a x =>
      simp [rebuildNode, Vm.of, action, ih' x (by simp), ih' a (by simp), recorder_ref, arrange, Kind.layout, Slot.run, R.nth, R.of, part, Node.spanOf]
    | tyCallback g o c x a r =>
      simp [rebuildNode, Vm.of, action, ih' x (by simp), ih' g (by simp), ih' r (by simp), recorder_ref, arrange, Kind.layout, Slot.run, R.nth, R.of, part, Node.spanOf]
    | typeInst o p i j x =>
      simp [rebuildNode, Vm.of, action, ih' x (by simp), recorder_ref, arrange, Kind.layout, Slot.run, R.nth, R.of, part, Node.spanOf]
    | numericFor f' i e s' c t c' p d b n ty =>
      simp [rebuildNode, Vm.of, ih' f' (by simp), ih' i (by simp), ih' e (by simp), ih' s' (by simp), ih' c (by simp), ih' t (by simp), ih' c' (by simp), ih' p (by simp), ih' d (by simp), ih' b (by simp), ih' n (by simp), ih' ty (by simp),
        arrange, Kind.layout, Slot.run, R.nth, R.of]
    | genericFor f' ps i e d b n ts hp ht =>
      have hr := rebuildNames_logs ps [] ts hp (ih3 (.node .punct ps) (by simp)) (by simp)
        (ih2 (.node .vec ts) (by simp))
      simp only [List.map_nil] at hr
      simp [rebuildNode, Vm.of, recorder_ref, ih' i (by simp), ih' e (by simp), ih' d (by simp), ih' b (by simp), hr, walkNames,
        arrange, Kind.layout, Slot.run, R.nth, R.of, R.elems]
    | funcBody g o c ps ts r b n hp ht =>
      have hr := rebuildNames_logs ps [] ts hp (ih3 (.node .punct ps) (by simp)) (by simp)
        (ih2 (.node .vec ts) (by simp))
      simp only [List.map_nil] at hr
      simp [rebuildNode, Vm.of, ih' g (by simp), ih' r (by simp), ih' b (by simp), hr, action, recorder_ref, walkNames,
        arrange, Kind.layout, Slot.run, R.nth, R.of, R.elems, part, Node.spanOf]
    | localAssignment l ts ps as e x hp ht ha =>
      have hr := rebuildNames_logs ps as ts hp (ih3 (.node .punct ps) (by simp))
        (ih2 (.node .vec as) (by simp)) (ih2 (.node .vec ts) (by simp))
      simp [rebuildNode, Vm.of, recorder_ref, ih' e (by simp), ih' x (by simp), hr, walkNames,
        arrange, Kind.layout, Slot.run, R.nth, R.of, R.elems]

/-! ## The result of a visit -/

theorem Node.rewrites_eq (h : TokRef → TokRef) (g : Cat → Node → Node) (cs : List Node) :
    Node.rewrite.rewrites h g cs = cs.map (Node.rewrite h g) := by
  induction cs with
  | nil => rfl
  | cons c cs ih => simp [Node.rewrite.rewrites, ih]

/-- What is done to a node after its parts. -/
def Kind.end_ (g : Cat → Node → Node) (k : Kind) (n : Node) : Node :=
  match k.cat with
  | some c => if hasHooks c then g c n else n
  | none => n

@[simp] theorem Node.rewrite_tok (h : TokRef → TokRef) (g : Cat → Node → Node) (t : TokRef) :
    (Node.tok t).rewrite h g = .tok (h t) := rfl

theorem Node.rewrite_node (h : TokRef → TokRef) (g : Cat → Node → Node) (k : Kind) (cs : List Node) :
    (Node.node k cs).rewrite h g = k.end_ g (.node k (cs.map (Node.rewrite h g))) := by
  unfold Node.rewrite Kind.end_
  rw [Node.rewrites_eq]
  cases k.cat <;> rfl

theorem Kind.hook_cat (k : Kind) : k = .span ∨
    k.hook = (match k.cat with | some c => if hasHooks c then some (.enter c, .leave c) else none | none => none) := by
  cases k <;> first | exact .inl rfl | exact .inr rfl

/-- The visitor changes tokens as `h` does, and nodes after their parts as `g` does, whatever its state. -/
structure Changes (v : MutVisitor σ) (h : TokRef → TokRef) (g : Cat → Node → Node) : Prop where
  token : ∀ t s, (t.visitMut v.toTokenVisitor s).1 = h t
  leave : ∀ c n s, (v.leave (.leave c) n s).1 = g c n
  span : ∀ n s, (v.leave .leaveSpan n s).1 = n

variable {v : MutVisitor σ} {h : TokRef → TokRef} {g : Cat → Node → Node}

theorem Changes.around (hv : Changes v h g) (k : Kind) (n : Node) (m : StateM σ Node) (r : Node)
    (hm : ∀ s, (m s).1 = r) (s : σ) : (v.around k n m s).1 = k.end_ g r := by
  unfold MutVisitor.around Kind.end_
  rcases k.hook_cat with rfl | hk
  · simp [Kind.hook, Kind.cat, hm, hv.span]
  · rw [hk]
    cases k.cat with
    | none => simp [hm]
    | some c => cases hc : hasHooks c <;> simp [hc, hm, hv.leave]

theorem goAll_changes (w : Node → StateM σ Node) (r : Node → Node) :
    ∀ (cs : List Node), (∀ c ∈ cs, ∀ s, (w c s).1 = r c) → ∀ s, (goAll (cs.map (Vm.of w)) s).1 = cs.map r
  | [], _, s => rfl
  | c :: cs, hc, s => by
    have ih := goAll_changes w r cs (fun d hd => hc d (List.mem_cons_of_mem _ hd))
    simp [goAll, Vm.of, hc c List.mem_cons_self] at ih ⊢
    simp [ih]

theorem rebuildNames_changes {w : Node → StateM σ Node} {r : Node → Node} {a : Ty}
    (hr : ∀ p, HasTy R₀ (.pair a) p → ∃ k cs, p = .node k cs ∧ r p = .node k (cs.map r)) :
    ∀ (ps as bs : List Node), (∀ p ∈ ps, HasTy R₀ (.pair a) p) →
      (∀ p ∈ ps, ∀ c ∈ p.children, ∀ s, (w c s).1 = r c) →
      (∀ a ∈ as, ∀ s, (w a s).1 = r a) → (∀ b ∈ bs, ∀ s, (w b s).1 = r b) →
      ∃ as' bs', (∀ s, (rebuildNames (ps.map fun p => p.children.map w) (as.map w) (bs.map w) s).1 =
          (ps.map r, as', bs')) ∧
        (as.length = ps.length → as' = as.map r) ∧ (bs.length = ps.length → bs' = bs.map r)
  | [], as, bs, _, _, _, _ => ⟨[], [], fun _ => rfl, by simp +contextual, by simp +contextual⟩
  | p :: ps, as, bs, hp, hc, ha, hb => by
    have tl : ∀ {l : List Node} {P : Node → Prop}, (∀ a ∈ l, P a) → ∀ a ∈ l.tail, P a :=
      fun h a hm => h a (List.mem_of_mem_tail hm)
    obtain ⟨as', bs', e, h1, h2⟩ := rebuildNames_changes (w := w) (r := r) hr ps as.tail bs.tail
      (fun q hq => hp q (List.mem_cons_of_mem _ hq)) (fun q hq => hc q (List.mem_cons_of_mem _ hq)) (tl ha) (tl hb)
    have hcp := hc p List.mem_cons_self
    have hpp := hp p List.mem_cons_self
    have mt : ∀ l : List Node, (l.map w).tail = l.tail.map w := fun l => by cases l <;> rfl
    have act : ∀ (l : List Node), (∀ a ∈ l, ∀ s, (w a s).1 = r a) → ∀ s,
        (action (l.map w) 0 s).1 = ((l.map r).head?).getD .none := by
      intro l hl s
      cases l with
      | nil => rfl
      | cons a l => simp [action, hl a List.mem_cons_self]
    have fin : ∀ (l l' : List Node), (l.tail.length = ps.length → l' = l.tail.map r) →
        l.length = (p :: ps).length → ((l.map r).head?).getD .none :: l' = l.map r := by
      intro l l' hl hlen
      cases l with
      | nil => simp at hlen
      | cons a l => simp at hlen; simp [hl hlen]
    refine ⟨((as.map r).head?).getD .none :: as', ((bs.map r).head?).getD .none :: bs',
      ?_, fin as as' h1, fin bs bs' h2⟩
    intro s
    obtain ⟨k, cs, hk, hrp⟩ := hr p hpp
    rcases hasTy_pair.1 hpp with ⟨x, _, rfl⟩ | ⟨x, t, _, _, rfl⟩
    · have hx := hcp x (by simp)
      cases hk
      simp only [rebuildNames, List.map_cons, List.map_nil, Node.children_node, run_bind, run_pure, action, hx,
        act as ha, act bs hb, mt, e, hrp]
    · have hx := hcp x (by simp)
      have ht := hcp (.tok t) (by simp)
      cases hk
      simp only [rebuildNames, List.map_cons, List.map_nil, Node.children_node, run_bind, run_pure, action, hx, ht,
        act as ha, act bs hb, mt, e, hrp]

theorem rewrite_container (h : TokRef → TokRef) (g : Cat → Node → Node) {k : Kind} (hk : k.cat = none) (cs : List Node) :
    (Node.node k cs).rewrite h g = .node k (cs.map (Node.rewrite h g)) := by
  rw [Node.rewrite_node, Kind.end_, hk]

theorem rewrite_span (h : TokRef → TokRef) (g : Cat → Node → Node) (o c : Node) :
    (Node.spanOf o c).rewrite h g = Node.spanOf (o.rewrite h g) (c.rewrite h g) := rewrite_container h g rfl _

theorem rewrite_pair (h : TokRef → TokRef) (g : Cat → Node → Node) {a : Ty} (p : Node) (hp : HasTy R₀ (.pair a) p) :
    ∃ k cs, p = .node k cs ∧ p.rewrite h g = .node k (cs.map (Node.rewrite h g)) := by
  rcases hasTy_pair.1 hp with ⟨x, _, rfl⟩ | ⟨x, t, _, _, rfl⟩
  · exact ⟨_, _, rfl, rewrite_container h g rfl _⟩
  · exact ⟨_, _, rfl, rewrite_container h g rfl _⟩

theorem visitMutWith_rewrite (f : Features) (hv : Changes v h g) (n : Node) :
    Typed R₀ n → AnnotationsCompiled f n → AnnotationsFull f n → ∀ s, (n.visitMutWith f v s).1 = n.rewrite h g := by
  induction n using Node.induct3 with
  | ht t => intro _ _ _ s; simp [hv.token]
  | hn k cs ih ih2 ih3 =>
    intro hty hcom hful s
    obtain ⟨hcom, hcoms⟩ := (Node.every_node _ _ _).1 hcom
    obtain ⟨hful, hfuls⟩ := (Node.every_node _ _ _).1 hful
    have ih3 : ∀ c ∈ cs, ∀ d ∈ c.children, ∀ e ∈ d.children, ∀ s, (e.visitMutWith f v s).1 = e.rewrite h g :=
      fun c hc d hd e he => ih3 c hc d hd e he (((hty.cases.1 c hc).children d hd).children e he)
        (((hcoms c hc).children d hd).children e he) (((hfuls c hc).children d hd).children e he)
    have ih2 : ∀ c ∈ cs, ∀ d ∈ c.children, ∀ s, (d.visitMutWith f v s).1 = d.rewrite h g := fun c hc d hd =>
      ih2 c hc d hd ((hty.cases.1 c hc).children d hd) ((hcoms c hc).children d hd) ((hfuls c hc).children d hd)
    have ih : ∀ c ∈ cs, ∀ s, (c.visitMutWith f v s).1 = c.rewrite h g :=
      fun c hc => ih c hc (hty.cases.1 c hc) (hcoms c hc) (hfuls c hc)
    rw [Node.visitMutWith_node, Node.rewrite_node]
    refine hv.around _ _ _ _ ?_ s
    have hview := hty.view
    clear hty hcoms hfuls s
    intro s
    have htok := hv.token
    cases hview with
    | plain hl =>
      rw [rebuild_plain f hl]
      simp [goAll_changes _ _ cs ih]
    | wrap hk o c x =>
      simp [rebuild_wrap f hk, Vm.of, action, ih x, htok, rewrite_span]
    | wrapSecond hk b o c x =>
      simp [rebuild_wrapSecond f hk, Vm.of, action, ih x, ih b, htok, rewrite_span]
    | fieldExprKey o c x e w =>
      simp [rebuildNode, Vm.of, action, ih x, ih w, htok, rewrite_span]
    | tyArray o c a x =>
      simp [rebuildNode, Vm.of, action, ih x, ih a, htok, rewrite_span]
    | tyCallback g o c x a r =>
      simp [rebuildNode, Vm.of, action, ih x, ih g, ih r, htok, rewrite_span]
    | typeInst o p i j x =>
      simp [rebuildNode, Vm.of, action, ih x, htok, rewrite_span]
    | numericFor f' i e s' c t c' p d b n ty =>
      simp [rebuildNode, Vm.of, ih f', ih i, ih e, ih s', ih c, ih t, ih c', ih p, ih d, ih b, ih n, ih ty]
    | genericFor f' ps i e d b n ts hp ht =>
      obtain ⟨as', bs', hr, h1, h2⟩ := rebuildNames_changes (rewrite_pair h g) ps [] ts hp
        (ih3 (.node .punct ps) (by simp)) (by simp) (ih2 (.node .vec ts) (by simp))
      simp only [List.map_nil] at hr
      simp [rebuildNode, Vm.of, htok, ih i, ih e, ih d, ih b, hr, annotations, rewrite_container h g (k := .punct) rfl,
        rewrite_container h g (k := .vec) rfl]
      cases hf : f.luau with
      | true => simp [h2 (hful hf)]
      | false =>
        have : ts = [] := hcom hf
        simp [this]
    | funcBody g' o c ps ts r b n hp ht =>
      obtain ⟨as', bs', hr, h1, h2⟩ := rebuildNames_changes (rewrite_pair h g) ps [] ts hp
        (ih3 (.node .punct ps) (by simp)) (by simp) (ih2 (.node .vec ts) (by simp))
      simp only [List.map_nil] at hr
      simp [rebuildNode, Vm.of, ih g', ih r, ih b, hr, annotations, action, htok, rewrite_span,
        rewrite_container h g (k := .punct) rfl, rewrite_container h g (k := .vec) rfl]
      cases hf : f.luau with
      | true => simp [h2 (hful hf)]
      | false =>
        have : ts = [] := hcom hf
        simp [this]
    | localAssignment l ts ps as e x hp ht ha =>
      obtain ⟨as', bs', hr, h1, h2⟩ := rebuildNames_changes (rewrite_pair h g) ps as ts hp
        (ih3 (.node .punct ps) (by simp)) (ih2 (.node .vec as) (by simp)) (ih2 (.node .vec ts) (by simp))
      have e1 : (if f.luau = true then bs' else []) = ts.map (Node.rewrite h g) := by
        cases hf : f.luau with
        | true => simp [h2 (hful.1 hf)]
        | false =>
          have : ts = [] := hcom.1 hf
          simp [this]
      have e2 : (if f.lua54 = true then as' else []) = as.map (Node.rewrite h g) := by
        cases hf : f.lua54 with
        | true => simp [h1 (hful.2 hf)]
        | false =>
          have : as = [] := hcom.2 hf
          simp [this]
      simp [rebuildNode, Vm.of, htok, ih e, ih x, hr, annotations, e1, e2,
        rewrite_container h g (k := .punct) rfl, rewrite_container h g (k := .vec) rfl]

theorem rewrite_id (n : Node) : n.rewrite id (fun _ n => n) = n := by
  induction n using Node.induct with
  | ht t => rfl
  | hn k cs ih =>
    have : cs.map (Node.rewrite id fun _ n => n) = cs := by
      calc _ = cs.map id := List.map_congr_left fun c hc => ih c hc
        _ = cs := List.map_id _
    rw [Node.rewrite_node, this, Kind.end_]
    split
    · split <;> rfl
    · rfl

end FM
