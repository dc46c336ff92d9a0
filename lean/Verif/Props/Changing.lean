import Verif.Proofs.Ast.Changing
import Verif.Props.Hooks

/-!
# Properties of mutable visitors that replace nodes before their parts are visited: C55
-/

namespace FM.Props
open FM FM.Spec

variable {R : TokRef → Prop} {σ : Type} {ty : Ty} {n m : Node} {pre : Cat → Node → Node}

/-- **C55.** A visit ends in one way only. -/
theorem visit_ends_once (f : Features) (v : ChangingVisitor σ) (hv : ∀ e n s, Typed R n → Typed R (v.enter e n s).1)
    (hty : HasTy R ty n) {s : σ} {m m' : Node} {t t' : σ} (h : VisitEnds f v n s m t) (h' : VisitEnds f v n s m' t') :
    m = m' ∧ t = t' := by
  obtain ⟨d, h⟩ := h
  obtain ⟨d', h'⟩ := h'
  have e1 := visitChanging_more f v hv ⟨ty, hty⟩ (Nat.le_max_left d d') (some s) (by simp [h])
  have e2 := visitChanging_more f v hv ⟨ty, hty⟩ (Nat.le_max_right d d') (some s) (by simp [h'])
  rw [e1, h, h'] at e2
  cases e2
  exact ⟨rfl, rfl⟩

/-- **C55.** A visitor whose `visit_x` hooks leave nodes as they are ends, with what `visit_mut` is in C14 and C52. -/
theorem changing_nothing_ends (f : Features) (v : MutVisitor σ) (hty : HasTy R ty n) (s : σ) :
    VisitEnds f v.changing n s (n.visitMutWith f v s).1 (n.visitMutWith f v s).2 :=
  ⟨n.size, visitChanging_keeps f v n.size n ⟨ty, hty⟩ (Nat.le_refl _) s⟩

/-- **C55.** If `visit_x` hooks replace nodes by `pre`, the visit ends with what a visit without replacing makes of the
tree in which all nodes have been replaced from the root downwards: a node that `pre` returned is not passed to `pre`
again, but its parts are.  The state may change with every call. -/
theorem replaced_then_visited (f : Features) (v : ChangingVisitor σ) (eff : Ev → σ → σ)
    (hv : Replaces v pre eff) (hp : KeepsTypes R pre) (hty : HasTy R ty n) (h : Expands pre n m) (s : σ) :
    VisitEnds f v n s (m.visitMutWith f (v.afterwards eff) s).1 (m.visitMutWith f (v.afterwards eff) s).2 := by
  obtain ⟨d, h⟩ := h
  exact ⟨d, visitChanging_expands f hv hp d n m ⟨ty, hty⟩ h d (Nat.le_refl _) s⟩

/-- **C55.** So a visitor whose `visit_x` hooks are `pre`, whose `visit_x_end` hooks are `g` and whose `visit_token` is `h`
replaces nodes by `pre` from the root downwards, then tokens by `h` and nodes by `g` from the tokens upwards. -/
theorem replacer_rewrites (f : Features) (h : Token → Token) (g : Cat → Node → Node) (hp : KeepsTypes R pre)
    (hty : HasTy R ty n) (he : Expands pre n m) (hc : AnnotationsCompiled f m) (hf : AnnotationsFull f m) :
    VisitEnds f (replacer pre h g) n () (m.rewrite (mapRef h) g) () := by
  have := replaced_then_visited f (replacer pre h g) (fun _ s => s) ⟨fun _ _ _ => rfl, fun _ _ => rfl⟩ hp hty he ()
  obtain ⟨d, he⟩ := he
  have hm : HasTy R ty m := he.hasTy hp d n m ty hty
  have e : ((m.visitMutWith f ((replacer pre h g).afterwards fun _ s => s) ()).1) = m.rewrite (mapRef h) g :=
    visitMutWith_rewrite f (h := mapRef h) (g := g)
      ⟨fun t s => congrArg Prod.fst (visitMut_tokenVisitor h t s), fun _ _ _ => rfl, fun _ _ => rfl⟩ m ⟨ty, hm⟩ hc hf ()
  rw [e] at this
  exact this

/-- **C55.** Replacing keeps the type of the tree. -/
theorem replaced_typed (hp : KeepsTypes R pre) (hty : HasTy R ty n) (h : Expands pre n m) : HasTy R ty m := by
  obtain ⟨d, h⟩ := h
  exact h.hasTy hp d n m ty hty

/-- **C55.** The visit ends if the parts of what replaces a node always are smaller than the node was, whatever the
measure. -/
theorem replacing_ends (hp : KeepsTypes R pre) (measure : Node → Nat)
    (hm : ∀ k cs, ∀ c ∈ (start pre k (.node k cs)).children, measure c < measure (.node k cs)) (hty : HasTy R ty n) :
    ∃ m, Expands pre n m := by
  obtain ⟨m, h⟩ := expands_of_measure hp measure hm (measure n + 1) n ⟨ty, hty⟩ (by omega)
  exact ⟨m, _, h⟩

/-- **C55.** So it ends if no node is replaced by a larger one. -/
theorem replacing_smaller_ends (hp : KeepsTypes R pre) (hm : ∀ c n, (pre c n).size ≤ n.size) (hty : HasTy R ty n) :
    ∃ m, Expands pre n m := by
  refine replacing_ends hp Node.size (fun k cs c hc => ?_) hty
  have hsz : ∀ (cs : List Node), ∀ c ∈ cs, c.size ≤ Node.size.sizes cs := by
    intro cs
    induction cs with
    | nil => simp
    | cons d cs ih =>
      intro c hc
      simp only [Node.size.sizes]
      rcases List.mem_cons.1 hc with rfl | hc
      · omega
      · have := ih c hc; omega
  have h1 : ∀ m : Node, ∀ c ∈ m.children, c.size < m.size := by
    intro m c hc
    cases m with
    | tok t => simp at hc
    | node k cs =>
      have := hsz cs c hc
      simp only [Node.size]; omega
  have h2 : (start pre k (.node k cs)).size ≤ (Node.node k cs).size := by
    unfold start
    split
    · split
      · exact hm _ _
      · exact Nat.le_refl _
    · exact Nat.le_refl _
  exact Nat.lt_of_lt_of_le (h1 _ c hc) h2

/-- **C55.** `visit_ast` ends just when the visit of the nodes does.  Then `visit_eof` has been called once, after all other
hooks, with the end of the file, and the tree has what it returned. -/
theorem file_visit_ends (f : Features) (v : ChangingVisitor σ) (a b : Ast) (s t : σ) :
    (∃ fuel, a.visitChanging f v fuel (some s) = (b, some t)) ↔
      ∃ u, VisitEnds f v a.nodes s b.nodes u ∧ v.eof a.eof u = (b.eof, t) := by
  constructor
  · rintro ⟨d, h⟩
    simp only [Ast.visitChanging, run_bind, run_pure] at h
    cases hn : a.nodes.visitChanging f v d (some s) with
    | mk n u =>
      rw [hn] at h
      cases u with
      | none => cases h
      | some u => cases h; exact ⟨u, ⟨d, hn⟩, rfl⟩
  · rintro ⟨u, ⟨d, h⟩, h'⟩
    refine ⟨d, ?_⟩
    simp only [Ast.visitChanging, run_bind, run_pure, h, callHook, h']

/-- A visitor that counts and puts a comment before the end of the file. -/
example : ∃ fuel, (⟨exParens, ⟨[], ⟨⟨0, 1, 1⟩, ⟨0, 1, 1⟩, .eof⟩, []⟩⟩ : Ast).visitChanging cfg51.feat
    { (MutVisitor.changing { enter := fun _ _ => modify (· + 1) } : ChangingVisitor Nat) with
      eof := fun t => do modify (· + 10); pure { t with leading := [⟨⟨0, 1, 1⟩, ⟨0, 1, 1⟩, .singleLineComment c!"x"⟩] } }
    fuel (some 0) = (⟨exParens, ⟨[⟨⟨0, 1, 1⟩, ⟨0, 1, 1⟩, .singleLineComment c!"x"⟩], ⟨⟨0, 1, 1⟩, ⟨0, 1, 1⟩, .eof⟩, []⟩⟩, some 12) :=
  ⟨10, rfl⟩

/-! ## A visitor that removes parentheses -/

/-- Remove parentheses around an expression. -/
def unwrap : Cat → Node → Node
  | .expr, .node .exprParens [_, x] => x
  | _, n => n

theorem unwrap_keeps : KeepsTypes R unwrap := by
  intro c n h
  unfold unwrap
  split
  · obtain ⟨k, cs, h1, h2, h3⟩ := hasTy_cat.1 h
    cases h3
    simp [Kind.sig] at h2
    exact h2.2
  · exact h

theorem unwrap_smaller (c : Cat) (n : Node) : (unwrap c n).size ≤ n.size := by
  unfold unwrap
  split
  · simp only [Node.size, Node.size.sizes]; omega
  · exact Nat.le_refl _

/-- `((1))`. -/
def exNested : Node := .node .exprParens
  [.node .span [tokAt [] (.symbol .leftParen), tokAt c!"((1)" (.symbol .rightParen)], exParens]

/-- Only the outer parentheses of `((1))` are removed: what `visit_expression` returns is not visited again. -/
example : exNested.display = c!"((1) )" ∧
    (exNested.visitChanging cfg51.feat (replacer unwrap id fun _ n => n) 10 (some ())).1.display = c!"(1) " ∧
    (exNested.visitChanging cfg51.feat (replacer unwrap id fun _ n => n) 10 (some ())).2 = some () ∧
    ∃ m, Expands unwrap exNested m := by
  refine ⟨by decide, by decide, by decide, replacing_smaller_ends unwrap_keeps unwrap_smaller (R := fun _ => True)
    (ty := .cat .expr) ?_⟩
  have := exParens_ty
  simp [exNested, tokAt, HasTy, Kind.cat, Kind.sig, this]

/-! ## A visitor that adds parentheses -/

/-- Put parentheses around every expression. -/
def wrap : Cat → Node → Node
  | .expr, n => .node .exprParens [.node .span [tokAt [] (.symbol .leftParen), tokAt [] (.symbol .rightParen)], n]
  | _, n => n

theorem wrap_keeps : KeepsTypes (fun _ => True) wrap := by
  intro c n h
  unfold wrap
  split
  · simp [HasTy, Kind.cat, Kind.sig, tokAt, h]
  · exact h

/-- **C55** (a condition is needed).  Not every visit ends: a visitor whose `visit_expression` puts parentheses around the
expression meets the same expression again as a part of what it returned. -/
theorem replacing_may_not_end (f : Features) (hty : HasTy R (.cat .expr) n) :
    ¬ ∃ m, VisitEnds f (replacer wrap id fun _ n => n) n () m () := by
  have key : ∀ fuel s, (n.visitChanging f (replacer wrap id fun _ n => n) fuel s).2 = none := by
    intro fuel
    induction fuel with
    | zero => intro s; rfl
    | succ fuel ih =>
      intro s
      obtain ⟨k, cs, h1, h2, rfl⟩ := hasTy_cat.1 hty
      cases s with
      | none => exact visitChanging_strict f _ _ _ ⟨_, hty⟩
      | some s =>
        have hk : k.hook = some (.enter .expr, .leave .expr) := by
          rcases k.hook_cat with rfl | hk
          · simp [Kind.cat] at h1
          · rw [hk, h1]; rfl
        have ht : ∀ t fuel, ((Node.tok t).visitChanging f (replacer wrap id fun _ n => n) fuel none).2 = none := by
          intro t fuel; cases fuel <;> rfl
        rw [Node.visitChanging_node, hk]
        have he : ∀ n, (replacer wrap id fun _ n => n).enter (.enter .expr) n s = (wrap .expr n, s) := fun _ => rfl
        simp only [run_bind, callHook, he, wrap]
        rw [List.map_cons, List.map_cons, List.map_nil, rebuild_wrap f rfl]
        simp only [Node.children, List.map_cons, List.map_nil, Vm.of, action, run_bind, run_pure, ih, tokAt, ht]
  rintro ⟨m, d, h⟩
  have := key d (some ())
  rw [h] at this
  cases this

end FM.Props
