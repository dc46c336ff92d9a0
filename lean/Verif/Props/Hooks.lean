import Verif.Proofs.Ast.HooksSpan
import Verif.Props.Visitors

/-!
# Properties of the hooks of visitors on nodes: C52
-/

namespace FM.Props
open FM FM.Spec

variable {R : TokRef → Prop} {ty : Ty} {n : Node}

/-- **C52.** A mutable visitor receives the calls of the hooks on nodes that an immutable visitor receives, in the same
order. -/
theorem visitors_agree_on_nodes (f : Features) (hty : HasTy R ty n) :
    (n.visitMutWith f recorder []).2.filter onNode = n.visit.filter onNode := by
  rw [recorder_logs f n ⟨ty, hty⟩ []]
  exact (nodeCalls_visit n ⟨ty, hty⟩).symm

/-- **C52.** Without commas between names and type instantiations, also the calls of hooks on tokens are the same. -/
theorem visitors_agree_partial (f : Features) (hty : HasTy R ty n) (hv : Visitable n) :
    (n.visitMutWith f recorder []).2 = n.visit := by
  rw [recorder_logs f n ⟨ty, hty⟩ []]
  exact (visit_walk n ⟨ty, hty⟩ hv).symm

/-- **C52** (the code disagrees).  A mutable visitor receives the comma of `local a, b = 1`, an immutable one does not. -/
theorem visitors_disagree : ∃ (f : Features) (n : Node), HasTy (fun _ => True) (.cat .localAssignment) n ∧
    (n.visitMutWith f recorder []).2 ≠ n.visit ∧
    (n.visitMutWith f recorder []).2.filter onNode = n.visit.filter onNode :=
  ⟨cfg51.feat, exLocal, exLocal_ty, by decide, visitors_agree_on_nodes _ exLocal_ty⟩

/-- A visitor that writes down its calls and changes nothing leaves the tree as it is. -/
theorem recorder_changes_nothing (f : Features) (hty : HasTy R ty n) (hc : AnnotationsCompiled f n)
    (hf : AnnotationsFull f n) : (n.visitMutWith f recorder []).1 = n := by
  have hk : ∀ (t : Token) s, (t.visitMut recorder.toTokenVisitor s).1 = t := by
    intro t s
    unfold Token.visitMut
    simp only [run_bind]
    split <;> rfl
  have hts : ∀ (ts : List Token) s, (visitTokens recorder.toTokenVisitor ts s).1 = ts := by
    intro ts
    induction ts with
    | nil => intro s; rfl
    | cons t ts ih => intro s; simp [visitTokens, hk, ih]
  have hr : ∀ (t : TokRef) s, (recorder.reference t s).1 = t := fun _ _ => rfl
  have he : ∀ (t : TokRef) s, (recorder.eof t s).1 = t := fun _ _ => rfl
  have hv : Changes recorder id fun _ n => n := ⟨by
    intro t s
    unfold TokRef.visitMut
    simp only [run_bind, hr]
    split
    · simp only [run_bind, run_pure, he, hk, hts]; rfl
    · simp only [run_bind, run_pure, hk, hts]; rfl, fun _ _ _ => rfl, fun _ _ => rfl⟩
  rw [visitMutWith_rewrite f hv n ⟨ty, hty⟩ hc hf, rewrite_id]

/-- **C52.** Every hook on nodes is called once for each node of its type in the tree; with `visitor_nests` (C42) so is its
`_end` hook. -/
theorem visitor_once_per_node (c : Cat) (hc : hasHooks c = true) (hty : HasTy R ty n) (hf : AnnotationsFit n) :
    n.visit.count (.enter c) = n.types.count c := by
  have h1 : ∀ es : List Ev, es.count (.enter c) = entered c es := fun es => rfl
  rw [h1, ← entered_calls, nodeCalls_visit n ⟨ty, hty⟩, entered_calls, entered_walk hc n ⟨ty, hty⟩ hf]

/-- **C52.** The same of mutable visitors. -/
theorem mut_visitor_once_per_node (f : Features) (c : Cat) (hc : hasHooks c = true) (hty : HasTy R ty n) (hf : AnnotationsFit n) :
    (n.visitMutWith f recorder []).2.count (.enter c) = n.types.count c := by
  have h1 : ∀ es : List Ev, es.count (.enter c) = entered c es := fun es => rfl
  rw [h1, ← entered_calls, nodeCalls, visitors_agree_on_nodes f hty, ← visitor_once_per_node c hc hty hf, h1]
  exact entered_calls c _

example : exTyped.visit.count (.enter .typeSpec) = 1 ∧ exTyped.types = [.localAssignment, .typeSpec, .typeInfo] ∧
    AnnotationsFit exTyped := by
  refine ⟨by decide, by decide, ?_⟩
  simp [AnnotationsFit, exTyped, exSpec, tokAt, Node.Every, Node.Every.everys, annotationsFit, Node.children]

/-- **C52** (the code disagrees).  Annotations in excess of the names of a list, as a caller can set them with
`with_type_specifiers`, are not visited. -/
theorem visitor_skips_excess : ∃ n, HasTy (fun _ => True) (.cat .localAssignment) n ∧
    n.visit.count (.enter .typeSpec) < n.types.count .typeSpec := by
  refine ⟨.node .localAssignment [tokAt [] (.symbol .kLocal), .node .vec [.node .present [exSpec c!"local"]],
    .node .punct [], .node .vec [], .node .absent [], .node .punct []], ?_, by decide⟩
  simp [exSpec, tokAt, HasTy, HasTys, AllTy, Kind.cat, Kind.sig]

/-- **C52** (the code disagrees with the list of hooks).  `visit_contained_span` and its `_end` are never called, neither on
an immutable nor on a mutable visitor: whatever contains a `ContainedSpan` visits its two tokens directly. -/
theorem contained_span_never_visited (f : Features) (c : Cat) (hty : HasTy R (.cat c) n) :
    (∀ e ∈ n.visit, e ≠ .enterSpan ∧ e ≠ .leaveSpan) ∧
    ∀ e ∈ (n.visitMutWith f recorder []).2, e ≠ .enterSpan ∧ e ≠ .leaveSpan := by
  have h1 : ∀ e ∈ n.visit, e ≠ .enterSpan ∧ e ≠ .leaveSpan := by
    intro e he
    have := span_free n _ hty rfl e he
    constructor <;> rintro rfl <;> simp [onSpan] at this
  refine ⟨h1, fun e he => ?_⟩
  have key : ∀ x : Ev, onNode x = true → x ∈ (n.visitMutWith f recorder []).2 → x ∈ n.visit := by
    intro x hx hm
    have : x ∈ (n.visitMutWith f recorder []).2.filter onNode := List.mem_filter.2 ⟨hm, hx⟩
    rw [visitors_agree_on_nodes f hty] at this
    exact (List.mem_filter.1 this).1
  constructor
  · rintro rfl; exact (h1 _ (key _ rfl he)).1 rfl
  · rintro rfl; exact (h1 _ (key _ rfl he)).2 rfl

example : HasTy (fun _ => True) (.cat .expr) exParens ∧ .enter .expr ∈ exParens.visit :=
  ⟨exParens_ty, by decide⟩

/-- **C52.** What `visit_x_end` hooks and `visit_token` return is what ends up in the tree: a mutable visitor whose
`visit_x_end` hooks are `g` and whose `visit_token` is `h` replaces every token and trivia by its image under `h`, and every
node, once its parts are done, by its image under `g`. -/
theorem rewriter_rewrites (f : Features) (h : Token → Token) (g : Cat → Node → Node) (hty : HasTy R ty n)
    (hc : AnnotationsCompiled f n) (hf : AnnotationsFull f n) :
    (n.visitMutWith f (rewriter h g) ()).1 = n.rewrite (mapRef h) g :=
  visitMutWith_rewrite f (v := rewriter h g) (h := mapRef h) (g := g)
    ⟨fun t s => congrArg Prod.fst (visitMut_tokenVisitor h t s), fun _ _ _ => rfl, fun _ _ => rfl⟩ n ⟨ty, hty⟩ hc hf ()

/-- The library built with the feature `luau` only. -/
def luauFeat : Features := { luau := true, lua52 := false, lua53 := false, lua54 := false, luajit := false, cfxlua := false }

/-- A visitor that renames types. -/
example : (exTyped.visitMutWith luauFeat (rewriter id fun c n =>
      if c = .typeInfo then .node .tyBasic [tokAt [] (.identifier c!"U")] else n) ()).1.display = c!"local x:U" ∧
    AnnotationsCompiled luauFeat exTyped ∧ AnnotationsFull luauFeat exTyped := by
  refine ⟨by decide, ?_, ?_⟩ <;>
    simp [AnnotationsFull, AnnotationsCompiled, exTyped, exSpec, tokAt, Node.Every, Node.Every.everys, annotationsFull,
      annotationsCompiled, Node.children, luauFeat]

end FM.Props
