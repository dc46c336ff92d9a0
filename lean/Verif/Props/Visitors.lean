import Verif.Proofs.Ast.Visit
import Verif.Proofs.Ast.Shown
import Verif.Proofs.Ast.Pointwise
import Verif.Proofs.Ast.Positions
import Verif.Props.Trees

/-!
# Properties of visitors: C29, C30, C31, C32, C42
-/

namespace FM.Props
open FM FM.Spec

variable {R : TokRef → Prop} {ty : Ty} {n : Node}

/-! ## C29, C31: mutable visitors -/

/-- The visitor that overrides nothing. -/
def defaultVisitor : TokenVisitor Unit := {}

/-- The visitor that overrides `visit_token` by a function of the token. -/
def tokenVisitor (g : Token → Token) : TokenVisitor Unit := { token := fun t => pure (g t) }

/-- Apply a function to a token and its trivia. -/
def mapRef (g : Token → Token) (t : TokRef) : TokRef := ⟨t.leading.map g, g t.token, t.trailing.map g⟩

theorem visitMut_tokenVisitor (g : Token → Token) (t : TokRef) (s : Unit) :
    t.visitMut (tokenVisitor g) s = (mapRef g t, s) := by
  have h1 : ∀ (t : Token) (s : Unit), t.visitMut (tokenVisitor g) s = (g t, s) := by
    intro t s
    unfold Token.visitMut tokenVisitor
    simp only [run_bind, run_pure, ite_self]
  have h2 : ∀ (ts : List Token) (s : Unit), visitTokens (tokenVisitor g) ts s = (ts.map g, s) := by
    intro ts s
    induction ts with
    | nil => rfl
    | cons t ts ih => simp [visitTokens, h1, ih]
  unfold TokRef.visitMut
  simp only [run_bind]
  show ((if t.token.type = TokenType.eof then _ else _ : StateM Unit TokRef) s) = _
  by_cases he : t.token.type = TokenType.eof <;>
    simp only [he, if_true, if_false, run_bind, run_pure, h1, h2] <;> rfl

theorem tokenVisitor_id : tokenVisitor id = defaultVisitor := rfl

theorem mapRef_id : mapRef id = id := by funext t; simp [mapRef]

/-- **C31.** A visitor that only overrides `visit_token`, by a function, returns the same tree with the function
applied once to every token and trivia. -/
theorem token_visitor_pointwise (f : Features) (g : Token → Token) (hty : HasTy R ty n)
    (hc : AnnotationsCompiled f n) (hf : AnnotationsFull f n) (s : Unit) :
    n.visitMut f (tokenVisitor g) s = (n.mapTok (mapRef g), s) :=
  visitMut_pointwise f _ _ (visitMut_tokenVisitor g) n ⟨ty, hty⟩ hc hf s

/-- Visiting token references one after the other. -/
theorem visitRefs_tokenVisitor (g : Token → Token) (ts : List TokRef) (s : Unit) :
    visitRefs (tokenVisitor g) ts s = (ts.map (mapRef g), s) := by
  induction ts with
  | nil => rfl
  | cons t ts ih => simp [visitRefs, visitMut_tokenVisitor, ih]

/-- **C31.** The printed tokens of the result are the images of the printed tokens, one by one; this also holds for
trees without an annotation per name. -/
theorem token_visitor_printed (f : Features) (g : Token → Token) (hty : HasTy R ty n) (hc : AnnotationsCompiled f n)
    (s : Unit) : allTokens (n.visitMut f (tokenVisitor g) s).1.flat = (allTokens n.flat).map g := by
  have h := visitMut_inOrder f (tokenVisitor g) n ⟨ty, hty⟩ hc s
  rw [visitRefs_tokenVisitor] at h
  rw [← (Prod.mk.inj h).1]
  simp [allTokens, mapRef, TokRef.flat, List.flatMap_map, List.map_flatMap]

/-- **C31.** Any visitor of tokens, with state, visits the printed tokens one after the other, in print order: its
effect on a node is that of running it over the list of printed tokens. -/
theorem visitor_in_order {σ : Type} (f : Features) (v : TokenVisitor σ) (hty : HasTy R ty n)
    (hc : AnnotationsCompiled f n) (s : σ) :
    ((n.visitMut f v s).1.flat, (n.visitMut f v s).2) = (n.flat.mapM (TokRef.visitMut v)) s := by
  rw [← visitMut_inOrder f v n ⟨ty, hty⟩ hc s]
  have : ∀ (ts : List TokRef) s, visitRefs v ts s = (ts.mapM (TokRef.visitMut v)) s := by
    intro ts
    induction ts with
    | nil => intro s; rfl
    | cons t ts ih => intro s; simp [visitRefs, ih, List.mapM_cons]
  exact this _ _

/-- **C31.** A visitor with state that overrides `visit_token` sees every token and trivia once, in print order, trivia
on their side of the token: its effect on a node is that of running it over the list of printed tokens and trivia. -/
theorem token_visitor_in_order {σ : Type} (f : Features) (g : Token → StateM σ Token) (hty : HasTy R ty n)
    (hc : AnnotationsCompiled f n) (s : σ) :
    (allTokens (n.visitMut f { token := g } s).1.flat, (n.visitMut f { token := g } s).2) =
      ((allTokens n.flat).mapM g) s := by
  let v : TokenVisitor σ := { token := g }
  have h1 : ∀ (t : Token), t.visitMut v = g t := by
    intro t; funext s
    unfold Token.visitMut
    simp only [run_bind, v]
    split <;> rfl
  have h2 : ∀ (ts : List Token) s, visitTokens v ts s = (ts.mapM g) s := by
    intro ts
    induction ts with
    | nil => intro s; rfl
    | cons t ts ih => intro s; simp [visitTokens, h1, ih, List.mapM_cons]
  have h3 : ∀ (t : TokRef) s, ((t.visitMut v s).1.flat, (t.visitMut v s).2) = (t.flat.mapM g) s := by
    intro t s
    have : t.visitMut v s = (do
      let leading ← visitTokens v t.leading
      let token ← t.token.visitMut v
      let trailing ← visitTokens v t.trailing
      pure (⟨leading, token, trailing⟩ : TokRef) : StateM σ TokRef) s := by
      show ((if t.token.type = TokenType.eof then _ else _ : StateM σ TokRef) s) = _
      by_cases he : t.token.type = TokenType.eof <;> simp only [he, if_true, if_false] <;> rfl
    rw [this]
    simp only [run_bind, run_pure, h1, h2, TokRef.flat, List.mapM_append, List.mapM_cons]
  have h4 : ∀ (ts : List TokRef) s, (allTokens (visitRefs v ts s).1, (visitRefs v ts s).2) = ((allTokens ts).mapM g) s := by
    intro ts
    induction ts with
    | nil => intro s; rfl
    | cons t ts ih =>
      intro s
      simp only [visitRefs, run_bind, run_pure, allTokens, List.flatMap_cons, List.mapM_append] at ih ⊢
      rw [← h3 t s, ← ih]
  have h := visitMut_inOrder f v n ⟨ty, hty⟩ hc s
  rw [← h4, h]

/-- **C29** (partial: the lists of annotations have one entry per name, as without Luau and 5.4, or with them
active).  The default mutable visitor returns an identical `Ast`. -/
theorem default_visitor_partial (f : Features) (a : Ast) (hty : HasTy R ty a.nodes)
    (hc : AnnotationsCompiled f a.nodes) (hf : AnnotationsFull f a.nodes) (s : Unit) :
    a.visitMut f defaultVisitor s = (a, s) := by
  have := token_visitor_pointwise f id hty hc hf s
  rw [tokenVisitor_id, mapRef_id, mapTok_id] at this
  simp [Ast.visitMut, this]
  rfl

/-- **C29** (partial: what is printed).  The default mutable visitor never changes the printed tokens. -/
theorem default_visitor_printed_partial (f : Features) (a : Ast) (hty : HasTy R ty a.nodes)
    (hc : AnnotationsCompiled f a.nodes) (s : Unit) :
    allTokens (a.visitMut f defaultVisitor s).1.nodes.flat = allTokens a.nodes.flat ∧
    (a.visitMut f defaultVisitor s).1.eof = a.eof := by
  have := token_visitor_printed f id hty hc s
  rw [tokenVisitor_id, List.map_id] at this
  exact ⟨this, rfl⟩

example : AnnotationsFull cfg51.feat exLocal ∧ AnnotationsCompiled cfg51.feat exLocal := by
  simp [AnnotationsFull, AnnotationsCompiled, exLocal, exNames, exOne, tokAt, Node.Every, Node.Every.everys,
    annotationsFull, annotationsCompiled, Node.children, cfg51]

/-- **C29 does not hold** in general: with Luau compiled in, a tree whose names have no list of types (which the
parser produces for `...` when Luau is not active) gets one entry `None` per name. -/
theorem default_visitor_changes : ∃ (f : Features) (n : Node), f.Closed ∧
    HasTy (fun _ => True) (.cat .localAssignment) n ∧ AnnotationsCompiled f n ∧
    (n.visitMut f defaultVisitor ()).1.size ≠ n.size := by
  refine ⟨allCfg.feat, exLocal, by decide, exLocal_ty, ?_, by decide +kernel⟩
  simp [AnnotationsCompiled, exLocal, exNames, exOne, tokAt, Node.Every, Node.Every.everys,
    annotationsCompiled, Node.children]

/-! ## C30, C42: immutable visitors -/

/-- **C30** (partial: trees without type instantiations and without lists of several names in parameters, `local`
or `for`).  The hooks for the kinds of tokens are called for every token and trivia of the node, once each, in
print order. -/
theorem visitor_sees_tokens_partial (hty : HasTy R ty n) (hv : Visitable n) :
    seen n.visit = (allTokens n.flat).filter hasHook := seen_visit n ⟨ty, hty⟩ hv

/-- `local x:T` is visitable. -/
example : Visitable exTyped ∧ (seen exTyped.visit).map Token.display = [c!"local", c!" ", c!"x", c!":", c!"T"] := by
  refine ⟨?_, by decide⟩
  simp [Visitable, exTyped, exSpec, tokAt, Node.Every, Node.Every.everys, visitable, Node.children]

/-- **C30 does not hold** for `local a, b = 1`: the comma is not visited. -/
theorem visitor_skips_comma : ∃ n, HasTy (fun _ => True) (.cat .localAssignment) n ∧
    ∃ t ∈ allTokens n.flat, hasHook t = true ∧ t ∉ seen n.visit :=
  ⟨exLocal, exLocal_ty, ⟨position c!"local a", endPosition c!"local a" c!",", .symbol .comma⟩, by decide, by decide,
    by decide⟩

/-- `<<T>>` as a type instantiation. -/
def exInst : Node := .node .typeInst
  [.node .span [tokAt [] (.symbol .lessThan), tokAt c!"<<T>" (.symbol .greaterThan)],
   .node .span [tokAt c!"<" (.symbol .lessThan), tokAt c!"<<T" (.symbol .greaterThan)],
   .node .punct [.node .pairEnd [.node .tyBasic [tokAt c!"<<" (.identifier c!"T")]]]]

/-- **C30 does not hold** for a type instantiation `<<T>>`: the inner `<` is visited twice, the inner `>` never. -/
theorem visitor_type_instantiation : ∃ n, HasTy (fun _ => True) (.cat .typeInst) n ∧
    n.display = c!"<<T>>" ∧ (seen n.visit).map Token.display = [c!"<", c!"<", c!"T", c!"<", c!">"] ∧
    ¬ (seen n.visit).Nodup := by
  refine ⟨exInst, ?_, by decide, by decide, by decide⟩
  simp [exInst, tokAt, HasTy, HasTys, AllTy, Kind.cat, Kind.sig]

/-- **C30** (partial: what it shows is not always the node itself).  For every node, the hooks for the kinds of tokens
are called for every token and trivia of the node as `Node.shown` describes it, once each, in print order: the node
without the separators of the names in parameters, `local` and `for`, and with the inner `<` of a type instantiation in
the place of its inner `>`. -/
theorem visitor_shows_partial (hty : HasTy R ty n) : seen n.visit = (allTokens n.shown.flat).filter hasHook :=
  seen_shown n ⟨ty, hty⟩

/-- For `local a, b = 1` all but the comma and its trivia is shown. -/
example : exLocal.display = c!"local a, b = 1" ∧ exLocal.shown.display = c!"local ab = 1" ∧
    (seen exLocal.visit).map Token.display = [c!"local", c!" ", c!"a", c!"b", c!" ", c!"=", c!" ", c!"1"] := by
  decide

example : exInst.shown.display = c!"<<T<>" := by decide

/-- **C42.** The hooks of nodes nest: every `visit_x` is closed by its `visit_x_end`, innermost first, and all nodes
are closed at the end. -/
theorem visitor_nests (n : Node) : nested [] n.visit = true := by
  have := neutral_visit n [] []
  simpa [nested] using this

/-- **C42.** The same for a whole `Ast`. -/
theorem visitor_nests_ast (a : Ast) : nested [] a.visit = true := by
  rw [Ast.visit, neutral_visit a.nodes]
  have := neutral_ref a.eof [] []
  simpa [nested] using this

example : nested [] (exParens.visit.dropLast) = false := by decide

/-! ## C32 -/

/-- **C32** (partial: not for the `Eof` token).  After `update_positions` every token of the block stands where the
text printed before it ends, nothing but positions has changed, and the printed text is the same. -/
theorem update_positions_partial (f : Features) (a : Ast) (hty : HasTy R ty a.nodes)
    (hc : AnnotationsCompiled f a.nodes) :
    Positioned [] (allTokens (a.updatePositions f).nodes.flat) ∧
    (allTokens (a.updatePositions f).nodes.flat).map Token.type = (allTokens a.nodes.flat).map Token.type ∧
    (a.updatePositions f).eof = a.eof ∧ (a.updatePositions f).display = a.display := by
  have h := visitMut_inOrder f positionVisitor a.nodes ⟨ty, hty⟩ hc ⟨⟨0, 1, 1⟩, false⟩
  obtain ⟨h1, h2, -⟩ := visitRefs_positions a.nodes.flat []
  rw [show position [] = ⟨0, 1, 1⟩ from rfl, h] at h1 h2
  have hn : (a.updatePositions f).nodes = (a.nodes.visitMut f positionVisitor ⟨⟨0, 1, 1⟩, false⟩).1 := rfl
  rw [hn]
  refine ⟨h1, h2, rfl, ?_⟩
  have : ∀ ts : List TokRef, ts.flatMap TokRef.display = (allTokens ts).flatMap Token.display := by
    intro ts
    rw [allTokens, List.flatMap_assoc]
    congr 1
    funext t
    simp [TokRef.flat, TokRef.display]
  rw [Ast.display, Ast.display, hn, Node.display, Node.display, this, this, display_of_types h2]
  rfl

/-- **C32** (partial: see `update_positions_partial`).  On an `Ast` whose tokens have the positions of its printed
text, in particular a parsed one, `update_positions` changes no printed token. -/
theorem update_positions_unchanged_partial (f : Features) (a : Ast) (hty : HasTy R ty a.nodes)
    (hc : AnnotationsCompiled f a.nodes) (hp : Positioned [] (allTokens a.nodes.flat)) :
    (a.updatePositions f).nodes.flat = a.nodes.flat ∧ (a.updatePositions f).eof = a.eof := by
  have h := visitMut_inOrder f positionVisitor a.nodes ⟨ty, hty⟩ hc ⟨⟨0, 1, 1⟩, false⟩
  obtain ⟨-, -, h3⟩ := visitRefs_positions a.nodes.flat []
  rw [show position [] = ⟨0, 1, 1⟩ from rfl, h] at h3
  exact ⟨h3 hp, rfl⟩

/-- The hypotheses hold for a tree with wrong positions, and `update_positions` puts them right. -/
example : HasTy (fun _ => True) (.cat .typeSpec) (exSpec c!"local x") ∧
    AnnotationsCompiled cfg51.feat (exSpec c!"local x") ∧
    (exSpec c!"local x").flat.map (fun t => t.token.start.bytes) = [7, 8] ∧
    ((Ast.updatePositions cfg51.feat ⟨exSpec c!"local x", ⟨[], .new .eof, []⟩⟩).nodes.flat.map
      fun t => t.token.start.bytes) = [0, 1] := by
  refine ⟨?_, ?_, by decide, by decide⟩
  · simp [exSpec, tokAt, HasTy, HasTys, Kind.cat, Kind.sig]
  · simp [exSpec, AnnotationsCompiled, tokAt, Node.Every, Node.Every.everys, annotationsCompiled]

/-- **C32 does not hold** for the `Eof` token and its trivia: they keep their positions. -/
theorem update_positions_misses_eof : ∃ (f : Features) (a : Ast), HasTy (fun _ => True) (.cat .localAssignment) a.nodes ∧
    AnnotationsCompiled f a.nodes ∧ (a.updatePositions f).eof.token.start ≠ position a.nodes.display := by
  refine ⟨cfg51.feat, ⟨exLocal, ⟨[], .new .eof, []⟩⟩, exLocal_ty, ?_, ?_⟩
  case refine_2 =>
    have h : ∀ (f : Features) (a : Ast), (a.updatePositions f).eof = a.eof := fun _ _ => rfl
    rw [h]
    decide
  simp [AnnotationsCompiled, exLocal, exNames, exOne, tokAt, Node.Every, Node.Every.everys,
    annotationsCompiled, Node.children]

end FM.Props
