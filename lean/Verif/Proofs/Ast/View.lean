import Verif.Proofs.Ast.Basic

/-!
# The nodes whose print order is not their declaration order

`Typed.view` lists them with their fields, so that later proofs go by cases on eleven shapes rather than on
all kinds.
-/

namespace FM
open Spec

/-- Kinds that consist of a `ContainedSpan` around one field. -/
def Kind.wraps : Kind → Bool
  | .tableCtor | .exprParens | .indexBrackets | .argsParens | .attribute | .genericDecl | .tyTable | .tyTuple
  | .keyIndex => true
  | _ => false

/-- Kinds that consist of a first field and then a `ContainedSpan` around another. -/
def Kind.wrapsSecond : Kind → Bool
  | .tyGeneric | .idxGeneric | .tyTypeof => true
  | _ => false

/-- See the module comment. -/
inductive View (R₀ : TokRef → Prop) : Kind → List Node → Prop
  | plain {k cs} (h : k.layout = none) : View R₀ k cs
  | wrap {k} (h : k.wraps = true) (o c x) : View R₀ k [.spanOf (.tok o) (.tok c), x]
  | wrapSecond {k} (h : k.wrapsSecond = true) (b o c x) : View R₀ k [b, .spanOf (.tok o) (.tok c), x]
  | fieldExprKey (o c x e v) : View R₀ .fieldExprKey [.spanOf (.tok o) (.tok c), x, .tok e, v]
  | tyArray (o c a x) : View R₀ .tyArray [.spanOf (.tok o) (.tok c), a, x]
  | tyCallback (g o c x a r) : View R₀ .tyCallback [g, .spanOf (.tok o) (.tok c), x, .tok a, r]
  | typeInst (o p i j x) : View R₀ .typeInst [.spanOf (.tok o) (.tok p), .spanOf (.tok i) (.tok j), x]
  | numericFor (f i e s c t c' p d b n ty) : View R₀ .numericFor [f, i, e, s, c, t, c', p, d, b, n, ty]
  | genericFor (f ps i e d b n ts) (hp : ∀ p ∈ ps, HasTy R₀ (.pair .tok) p)
      (ht : ∀ t ∈ ts, HasTy R₀ (.opt (.cat .typeSpec)) t) :
      View R₀ .genericFor [.tok f, .node .punct ps, i, e, d, b, .tok n, .node .vec ts]
  | funcBody (g o c ps ts r b n) (hp : ∀ p ∈ ps, HasTy R₀ (.pair (.cat .param)) p)
      (ht : ∀ t ∈ ts, HasTy R₀ (.opt (.cat .typeSpec)) t) :
      View R₀ .funcBody [g, .spanOf (.tok o) (.tok c), .node .punct ps, .node .vec ts, r, b, .tok n]
  | localAssignment (l ts ps as e x) (hp : ∀ p ∈ ps, HasTy R₀ (.pair .tok) p)
      (ht : ∀ t ∈ ts, HasTy R₀ (.opt (.cat .typeSpec)) t) (ha : ∀ t ∈ as, HasTy R₀ (.opt (.cat .attribute)) t) :
      View R₀ .localAssignment [.tok l, .node .vec ts, .node .punct ps, .node .vec as, e, x]

theorem hasTys_cons' {R₀ : TokRef → Prop} {a : Ty} {as : List Ty} {cs : List Node} (h : HasTys R₀ (a :: as) cs) :
    ∃ c cs', HasTy R₀ a c ∧ HasTys R₀ as cs' ∧ cs = c :: cs' := hasTys_cons.1 h

theorem Typed.view {R₀ : TokRef → Prop} {k : Kind} {cs : List Node} (h : Typed R₀ (.node k cs)) : View R₀ k cs := by
  cases hl : k.layout with
  | none => exact .plain hl
  | some l =>
    have hs := h.sig hl
    clear h
    have one : ∀ {k a}, k.wraps = true → HasTys R₀ [.span, a] cs → View R₀ k cs := by
      intro k a hk hs
      obtain ⟨b, _, hb, hs1, rfl⟩ := hasTys_cons' hs
      obtain ⟨x, _, _, hs2, rfl⟩ := hasTys_cons' hs1
      obtain rfl := hasTys_nil.1 hs2
      obtain ⟨o, c, _, _, rfl⟩ := hasTy_span.1 hb
      exact .wrap hk o c x
    have two : ∀ {k a a'}, k.wrapsSecond = true → HasTys R₀ [a, .span, a'] cs → View R₀ k cs := by
      intro k a a' hk hs
      obtain ⟨y, _, _, hs1, rfl⟩ := hasTys_cons' hs
      obtain ⟨b, _, hb, hs2, rfl⟩ := hasTys_cons' hs1
      obtain ⟨x, _, _, hs3, rfl⟩ := hasTys_cons' hs2
      obtain rfl := hasTys_nil.1 hs3
      obtain ⟨o, c, _, _, rfl⟩ := hasTy_span.1 hb
      exact .wrapSecond hk y o c x
    cases k <;> simp only [Kind.layout, reduceCtorEq] at hl <;> clear hl <;> simp only [Kind.sig] at hs <;>
      try first | exact one rfl hs | exact two rfl hs
    case fieldExprKey =>
      obtain ⟨b, _, hb, hs1, rfl⟩ := hasTys_cons' hs
      obtain ⟨x, _, _, hs2, rfl⟩ := hasTys_cons' hs1
      obtain ⟨e, _, he, hs3, rfl⟩ := hasTys_cons' hs2
      obtain ⟨v, _, _, hs4, rfl⟩ := hasTys_cons' hs3
      obtain rfl := hasTys_nil.1 hs4
      obtain ⟨o, c, _, _, rfl⟩ := hasTy_span.1 hb
      obtain ⟨e, _, rfl⟩ := hasTy_tok.1 he
      exact .fieldExprKey o c x e v
    case tyArray =>
      obtain ⟨b, _, hb, hs1, rfl⟩ := hasTys_cons' hs
      obtain ⟨x, _, _, hs2, rfl⟩ := hasTys_cons' hs1
      obtain ⟨e, _, _, hs3, rfl⟩ := hasTys_cons' hs2
      obtain rfl := hasTys_nil.1 hs3
      obtain ⟨o, c, _, _, rfl⟩ := hasTy_span.1 hb
      exact .tyArray o c x e
    case tyCallback =>
      obtain ⟨g, _, _, hs1, rfl⟩ := hasTys_cons' hs
      obtain ⟨b, _, hb, hs2, rfl⟩ := hasTys_cons' hs1
      obtain ⟨x, _, _, hs3, rfl⟩ := hasTys_cons' hs2
      obtain ⟨e, _, he, hs4, rfl⟩ := hasTys_cons' hs3
      obtain ⟨r, _, _, hs5, rfl⟩ := hasTys_cons' hs4
      obtain rfl := hasTys_nil.1 hs5
      obtain ⟨o, c, _, _, rfl⟩ := hasTy_span.1 hb
      obtain ⟨e, _, rfl⟩ := hasTy_tok.1 he
      exact .tyCallback g o c x e r
    case typeInst =>
      obtain ⟨b, _, hb, hs1, rfl⟩ := hasTys_cons' hs
      obtain ⟨b', _, hb', hs2, rfl⟩ := hasTys_cons' hs1
      obtain ⟨x, _, _, hs3, rfl⟩ := hasTys_cons' hs2
      obtain rfl := hasTys_nil.1 hs3
      obtain ⟨o, p, _, _, rfl⟩ := hasTy_span.1 hb
      obtain ⟨i, j, _, _, rfl⟩ := hasTy_span.1 hb'
      exact .typeInst o p i j x
    case numericFor =>
      obtain ⟨x1, _, _, hs1, rfl⟩ := hasTys_cons' hs
      obtain ⟨x2, _, _, hs2, rfl⟩ := hasTys_cons' hs1
      obtain ⟨x3, _, _, hs3, rfl⟩ := hasTys_cons' hs2
      obtain ⟨x4, _, _, hs4, rfl⟩ := hasTys_cons' hs3
      obtain ⟨x5, _, _, hs5, rfl⟩ := hasTys_cons' hs4
      obtain ⟨x6, _, _, hs6, rfl⟩ := hasTys_cons' hs5
      obtain ⟨x7, _, _, hs7, rfl⟩ := hasTys_cons' hs6
      obtain ⟨x8, _, _, hs8, rfl⟩ := hasTys_cons' hs7
      obtain ⟨x9, _, _, hs9, rfl⟩ := hasTys_cons' hs8
      obtain ⟨x10, _, _, hs10, rfl⟩ := hasTys_cons' hs9
      obtain ⟨x11, _, _, hs11, rfl⟩ := hasTys_cons' hs10
      obtain ⟨x12, _, _, hs12, rfl⟩ := hasTys_cons' hs11
      obtain rfl := hasTys_nil.1 hs12
      exact .numericFor _ _ _ _ _ _ _ _ _ _ _ _
    case genericFor =>
      obtain ⟨x1, _, h1, hs1, rfl⟩ := hasTys_cons' hs
      obtain ⟨x2, _, h2, hs2, rfl⟩ := hasTys_cons' hs1
      obtain ⟨x3, _, _, hs3, rfl⟩ := hasTys_cons' hs2
      obtain ⟨x4, _, _, hs4, rfl⟩ := hasTys_cons' hs3
      obtain ⟨x5, _, _, hs5, rfl⟩ := hasTys_cons' hs4
      obtain ⟨x6, _, _, hs6, rfl⟩ := hasTys_cons' hs5
      obtain ⟨x7, _, h7, hs7, rfl⟩ := hasTys_cons' hs6
      obtain ⟨x8, _, h8, hs8, rfl⟩ := hasTys_cons' hs7
      obtain rfl := hasTys_nil.1 hs8
      obtain ⟨ps, hp, rfl⟩ := hasTy_punct.1 h2
      obtain ⟨ts, ht, rfl⟩ := hasTy_vec.1 h8
      obtain ⟨f, _, rfl⟩ := hasTy_tok.1 h1
      obtain ⟨n, _, rfl⟩ := hasTy_tok.1 h7
      exact .genericFor _ _ _ _ _ _ _ _ hp ht
    case funcBody =>
      obtain ⟨x1, _, _, hs1, rfl⟩ := hasTys_cons' hs
      obtain ⟨b, _, hb, hs2, rfl⟩ := hasTys_cons' hs1
      obtain ⟨x3, _, h3, hs3, rfl⟩ := hasTys_cons' hs2
      obtain ⟨x4, _, h4, hs4, rfl⟩ := hasTys_cons' hs3
      obtain ⟨x5, _, _, hs5, rfl⟩ := hasTys_cons' hs4
      obtain ⟨x6, _, _, hs6, rfl⟩ := hasTys_cons' hs5
      obtain ⟨x7, _, h7, hs7, rfl⟩ := hasTys_cons' hs6
      obtain rfl := hasTys_nil.1 hs7
      obtain ⟨o, c, _, _, rfl⟩ := hasTy_span.1 hb
      obtain ⟨ps, hp, rfl⟩ := hasTy_punct.1 h3
      obtain ⟨ts, ht, rfl⟩ := hasTy_vec.1 h4
      obtain ⟨n, _, rfl⟩ := hasTy_tok.1 h7
      exact .funcBody _ _ _ _ _ _ _ _ hp ht
    case localAssignment =>
      obtain ⟨x1, _, h1, hs1, rfl⟩ := hasTys_cons' hs
      obtain ⟨x2, _, h2, hs2, rfl⟩ := hasTys_cons' hs1
      obtain ⟨x3, _, h3, hs3, rfl⟩ := hasTys_cons' hs2
      obtain ⟨x4, _, h4, hs4, rfl⟩ := hasTys_cons' hs3
      obtain ⟨x5, _, _, hs5, rfl⟩ := hasTys_cons' hs4
      obtain ⟨x6, _, _, hs6, rfl⟩ := hasTys_cons' hs5
      obtain rfl := hasTys_nil.1 hs6
      obtain ⟨ts, ht, rfl⟩ := hasTy_vec.1 h2
      obtain ⟨ps, hp, rfl⟩ := hasTy_punct.1 h3
      obtain ⟨as, ha, rfl⟩ := hasTy_vec.1 h4
      obtain ⟨l, _, rfl⟩ := hasTy_tok.1 h1
      exact .localAssignment _ _ _ _ _ _ hp ht ha

/-! ## Print order of each shape -/

theorem flat_vec (cs : List Node) : (Node.node .vec cs).flat = cs.flatMap Node.flat := Node.flat_plain rfl cs
theorem flat_punct (cs : List Node) : (Node.node .punct cs).flat = cs.flatMap Node.flat := Node.flat_plain rfl cs
@[simp] theorem flat_span (o c : TokRef) : (Node.spanOf (.tok o) (.tok c)).flat = [o, c] := by
  rw [Node.spanOf, Node.flat_plain rfl]; simp

/-- Flattened annotated names: values, annotations, punctuation. -/
def flatNames (ps as bs : List Node) : List TokRef :=
  joinNames true (ps.map fun c => c.children.map Node.flat) (as.map Node.flat) (bs.map Node.flat)

theorem flat_wrap {k : Kind} (h : k.wraps = true) (o c : TokRef) (x : Node) :
    (Node.node k [.spanOf (.tok o) (.tok c), x]).flat = o :: (x.flat ++ [c]) := by
  rw [Node.flat_node]
  cases k <;> simp only [Kind.wraps, Bool.false_eq_true] at h <;>
    simp [arrange, Kind.layout, Slot.run, R.nth, R.of, part, Node.spanOf]

theorem flat_wrapSecond {k : Kind} (h : k.wrapsSecond = true) (b : Node) (o c : TokRef) (x : Node) :
    (Node.node k [b, .spanOf (.tok o) (.tok c), x]).flat = b.flat ++ o :: (x.flat ++ [c]) := by
  rw [Node.flat_node]
  cases k <;> simp only [Kind.wrapsSecond, Bool.false_eq_true] at h <;>
    simp [arrange, Kind.layout, Slot.run, R.nth, R.of, part, Node.spanOf]

theorem flat_fieldExprKey (o c : TokRef) (x e v : Node) :
    (Node.node .fieldExprKey [.spanOf (.tok o) (.tok c), x, e, v]).flat = o :: (x.flat ++ c :: (e.flat ++ v.flat)) := by
  rw [Node.flat_node]; simp [arrange, Kind.layout, Slot.run, R.nth, R.of, part, Node.spanOf]

theorem flat_tyArray (o c : TokRef) (a x : Node) :
    (Node.node .tyArray [.spanOf (.tok o) (.tok c), a, x]).flat = o :: (a.flat ++ (x.flat ++ [c])) := by
  rw [Node.flat_node]; simp [arrange, Kind.layout, Slot.run, R.nth, R.of, part, Node.spanOf]

theorem flat_tyCallback (g : Node) (o c : TokRef) (x a r : Node) :
    (Node.node .tyCallback [g, .spanOf (.tok o) (.tok c), x, a, r]).flat =
      g.flat ++ o :: (x.flat ++ c :: (a.flat ++ r.flat)) := by
  rw [Node.flat_node]; simp [arrange, Kind.layout, Slot.run, R.nth, R.of, part, Node.spanOf]

theorem flat_typeInst (o p i j : TokRef) (x : Node) :
    (Node.node .typeInst [.spanOf (.tok o) (.tok p), .spanOf (.tok i) (.tok j), x]).flat =
      o :: i :: (x.flat ++ [j, p]) := by
  rw [Node.flat_node]; simp [arrange, Kind.layout, Slot.run, R.nth, R.of, part, Node.spanOf]

theorem flat_numericFor (f i e s c t c' p d b n ty : Node) :
    (Node.node .numericFor [f, i, e, s, c, t, c', p, d, b, n, ty]).flat =
      f.flat ++ (i.flat ++ (ty.flat ++ (e.flat ++ (s.flat ++ (c.flat ++ (t.flat ++ (c'.flat ++ (p.flat ++
        (d.flat ++ (b.flat ++ n.flat)))))))))) := by
  rw [Node.flat_node]; simp [arrange, Kind.layout, Slot.run, R.nth, R.of]

theorem flat_genericFor (f : Node) (ps : List Node) (i e d b n : Node) (ts : List Node) :
    (Node.node .genericFor [f, .node .punct ps, i, e, d, b, n, .node .vec ts]).flat =
      f.flat ++ (flatNames ps [] ts ++ (i.flat ++ (e.flat ++ (d.flat ++ (b.flat ++ n.flat))))) := by
  rw [Node.flat_node]; simp [arrange, Kind.layout, Slot.run, R.nth, R.of, R.elems, flatNames]

theorem flat_funcBody (g : Node) (o c : TokRef) (ps ts : List Node) (r b n : Node) :
    (Node.node .funcBody [g, .spanOf (.tok o) (.tok c), .node .punct ps, .node .vec ts, r, b, n]).flat =
      g.flat ++ o :: (flatNames ps [] ts ++ c :: (r.flat ++ (b.flat ++ n.flat))) := by
  rw [Node.flat_node]; simp [arrange, Kind.layout, Slot.run, R.nth, R.of, R.elems, flatNames, part, Node.spanOf]

theorem flat_localAssignment (l : Node) (ts ps as : List Node) (e x : Node) :
    (Node.node .localAssignment [l, .node .vec ts, .node .punct ps, .node .vec as, e, x]).flat =
      l.flat ++ (flatNames ps as ts ++ (e.flat ++ x.flat)) := by
  rw [Node.flat_node]; simp [arrange, Kind.layout, Slot.run, R.nth, R.of, R.elems, flatNames]

end FM
