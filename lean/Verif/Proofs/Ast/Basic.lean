import Verif.Model.Ast.Visit
import Verif.Spec.Trees

/-!
# Syntax trees: induction, inversion of typing, equations of folds
-/

namespace FM

mutual
theorem Node.induct {P : Node → Prop} (ht : ∀ t, P (.tok t))
    (hn : ∀ k cs, (∀ c ∈ cs, P c) → P (.node k cs)) : ∀ n, P n
  | .tok t => ht t
  | .node k cs => hn k cs (Node.inducts ht hn cs)
theorem Node.inducts {P : Node → Prop} (ht : ∀ t, P (.tok t))
    (hn : ∀ k cs, (∀ c ∈ cs, P c) → P (.node k cs)) : ∀ cs : List Node, ∀ c ∈ cs, P c
  | [], _, h => nomatch h
  | d :: ds, c, h => (List.mem_cons.1 h).elim (fun e => e ▸ Node.induct ht hn d) (Node.inducts ht hn ds c)
end

@[simp] theorem Node.children_tok (t : TokRef) : (Node.tok t).children = [] := rfl
@[simp] theorem Node.children_node (k : Kind) (cs : List Node) : (Node.node k cs).children = cs := rfl

/-- Induction with hypotheses for three generations. -/
theorem Node.induct3 {P : Node → Prop} (ht : ∀ t, P (.tok t))
    (hn : ∀ k cs, (∀ c ∈ cs, P c) → (∀ c ∈ cs, ∀ d ∈ c.children, P d) →
      (∀ c ∈ cs, ∀ d ∈ c.children, ∀ e ∈ d.children, P e) → P (.node k cs)) (n : Node) : P n := by
  have : P n ∧ (∀ c ∈ n.children, P c) ∧ ∀ c ∈ n.children, ∀ d ∈ c.children, P d := by
    induction n using Node.induct with
    | ht t => exact ⟨ht t, by simp⟩
    | hn k cs ih => exact ⟨hn k cs (fun c hc => (ih c hc).1) (fun c hc => (ih c hc).2.1) fun c hc => (ih c hc).2.2,
        fun c hc => (ih c hc).1, fun c hc => (ih c hc).2.1⟩
  exact this.1

theorem Node.mapToks_eq (f : TokRef → TokRef) (cs : List Node) : Node.mapTok.mapToks f cs = cs.map (Node.mapTok f) := by
  induction cs with
  | nil => rfl
  | cons c cs ih => simp [Node.mapTok.mapToks, ih]

@[simp] theorem Node.mapTok_tok (f : TokRef → TokRef) (t : TokRef) : (Node.tok t).mapTok f = .tok (f t) := rfl
@[simp] theorem Node.mapTok_node (f : TokRef → TokRef) (k : Kind) (cs : List Node) :
    (Node.node k cs).mapTok f = .node k (cs.map (Node.mapTok f)) := by rw [Node.mapTok, Node.mapToks_eq]

theorem Node.everys_iff (p : Kind → List Node → Prop) (cs : List Node) :
    Node.Every.everys p cs ↔ ∀ c ∈ cs, c.Every p := by
  induction cs with
  | nil => simp [Node.Every.everys]
  | cons c cs ih => simp [Node.Every.everys, ih]

@[simp] theorem Node.every_tok (p : Kind → List Node → Prop) (t : TokRef) : (Node.tok t).Every p := trivial
@[simp] theorem Node.every_node (p : Kind → List Node → Prop) (k : Kind) (cs : List Node) :
    (Node.node k cs).Every p ↔ p k cs ∧ ∀ c ∈ cs, c.Every p := by rw [Node.Every, Node.everys_iff]

theorem Node.Every.children {p : Kind → List Node → Prop} {n : Node} (h : n.Every p) : ∀ c ∈ n.children, c.Every p := by
  cases n with
  | tok t => simp
  | node k cs => exact ((Node.every_node p k cs).1 h).2

/-! ## Folds -/

section
variable {β : Type} (leaf : TokRef → List β) (alg : Kind → List (R β) → List β)

theorem Node.folds_eq (cs : List Node) : Node.folds leaf alg cs = cs.map (Node.fold leaf alg) := by
  induction cs with
  | nil => rfl
  | cons c cs ih => simp [Node.folds, ih]

/-- What a fold sees of a child. -/
def R.of (g : Node → List β) (n : Node) : R β :=
  ⟨g n, n.children.map g, n.children.map fun c => c.children.map g⟩

theorem Node.fold_eq (n : Node) : n.fold leaf alg = R.of (fun n => (n.fold leaf alg).all) n := by
  cases n with
  | tok t => rfl
  | node k cs =>
    simp only [Node.fold, R.of, Node.folds_eq, Node.children_node, List.map_map]
    congr 1
    apply List.map_congr_left
    intro c _
    cases c with
    | tok t => rfl
    | node k cs => simp [Node.fold, Node.folds_eq]

theorem Node.fold_all (k : Kind) (cs : List Node) : ((Node.node k cs).fold leaf alg).all =
    alg k (cs.map (R.of fun n => (n.fold leaf alg).all)) := by
  simp only [Node.fold, Node.folds_eq]
  congr 1
  apply List.map_congr_left
  intro c _
  exact Node.fold_eq leaf alg c
end

@[simp] theorem Node.flat_tok (t : TokRef) : (Node.tok t).flat = [t] := rfl
@[simp] theorem Node.tokens_tok (t : TokRef) : (Node.tok t).tokens = [t] := rfl
@[simp] theorem Node.visit_tok (t : TokRef) : (Node.tok t).visit = t.visit := rfl

theorem Node.flat_node (k : Kind) (cs : List Node) :
    (Node.node k cs).flat = arrange k.layout (cs.map (R.of Node.flat)) := Node.fold_all _ _ k cs

theorem Node.visit_node (k : Kind) (cs : List Node) :
    (Node.node k cs).visit = k.visit (cs.map (R.of Node.visit)) := Node.fold_all _ _ k cs

theorem concat_of {β : Type} (g : Node → List β) (cs : List Node) : concat (cs.map (R.of g)) = cs.flatMap g := by
  simp [concat, List.flatMap_map, R.of]

@[simp] theorem Node.tokens_node (k : Kind) (cs : List Node) : (Node.node k cs).tokens = cs.flatMap Node.tokens :=
  (Node.fold_all _ _ k cs).trans (concat_of _ _)

theorem Node.flat_plain {k : Kind} (h : k.layout = Option.none) (cs : List Node) :
    (Node.node k cs).flat = cs.flatMap Node.flat := by
  rw [Node.flat_node, h]; exact concat_of _ _

/-! ## Typing -/

variable {R₀ : TokRef → Prop}

@[simp] theorem hasTys_nil {cs : List Node} : HasTys R₀ [] cs ↔ cs = [] := by
  cases cs <;> simp [HasTys]

@[simp] theorem hasTys_cons {a : Ty} {as : List Ty} {cs : List Node} :
    HasTys R₀ (a :: as) cs ↔ ∃ c cs', HasTy R₀ a c ∧ HasTys R₀ as cs' ∧ cs = c :: cs' := by
  cases cs with
  | nil => simp [HasTys]
  | cons c cs =>
    simp only [HasTys, List.cons.injEq]
    constructor
    · rintro ⟨h, h'⟩; exact ⟨_, _, h, h', rfl, rfl⟩
    · rintro ⟨_, _, h, h', rfl, rfl⟩; exact ⟨h, h'⟩

theorem allTy_iff {a : Ty} {cs : List Node} : AllTy R₀ a cs ↔ ∀ c ∈ cs, HasTy R₀ a c := by
  induction cs with
  | nil => simp [AllTy]
  | cons c cs ih => simp [AllTy, ih]

@[simp] theorem hasTy_tok {n : Node} : HasTy R₀ .tok n ↔ ∃ t, R₀ t ∧ n = .tok t := by
  cases n with
  | tok t => simp [HasTy]
  | node k cs => cases k <;> simp [HasTy]

@[simp] theorem hasTy_span {n : Node} :
    HasTy R₀ .span n ↔ ∃ o c, R₀ o ∧ R₀ c ∧ n = .node .span [.tok o, .tok c] := by
  cases n with
  | tok t => simp [HasTy]
  | node k cs =>
    cases k <;> simp [HasTy] <;> grind

theorem hasTy_cat {c : Cat} {n : Node} :
    HasTy R₀ (.cat c) n ↔ ∃ k cs, k.cat = some c ∧ HasTys R₀ k.sig cs ∧ n = .node k cs := by
  cases n with
  | tok t => simp [HasTy]
  | node k cs =>
    simp only [HasTy, Node.node.injEq]
    constructor
    · rintro ⟨h, h'⟩; exact ⟨_, _, h, h', rfl, rfl⟩
    · rintro ⟨_, _, h, h', rfl, rfl⟩; exact ⟨h, h'⟩

theorem hasTy_opt {a : Ty} {n : Node} :
    HasTy R₀ (.opt a) n ↔ n = .node .absent [] ∨ ∃ c, HasTy R₀ a c ∧ n = .node .present [c] := by
  cases n with
  | tok t => simp [HasTy]
  | node k cs => cases k <;> simp [HasTy]

theorem hasTy_vec {a : Ty} {n : Node} :
    HasTy R₀ (.vec a) n ↔ ∃ cs, (∀ c ∈ cs, HasTy R₀ a c) ∧ n = .node .vec cs := by
  cases n with
  | tok t => simp [HasTy]
  | node k cs => cases k <;> simp [HasTy, allTy_iff]

theorem hasTy_punct {a : Ty} {n : Node} :
    HasTy R₀ (.punct a) n ↔ ∃ cs, (∀ c ∈ cs, HasTy R₀ (.pair a) c) ∧ n = .node .punct cs := by
  cases n with
  | tok t => simp [HasTy]
  | node k cs => cases k <;> simp [HasTy, allTy_iff]

theorem hasTy_pair {a : Ty} {n : Node} :
    HasTy R₀ (.pair a) n ↔ (∃ c, HasTy R₀ a c ∧ n = .node .pairEnd [c]) ∨
      ∃ c t, HasTy R₀ a c ∧ R₀ t ∧ n = .node .pairPunct [c, .tok t] := by
  cases n with
  | tok t => simp [HasTy]
  | node k cs =>
    cases k <;> simp [HasTy] <;> grind

theorem hasTy_tup {a b : Ty} {n : Node} :
    HasTy R₀ (.tup a b) n ↔ ∃ x y, HasTy R₀ a x ∧ HasTy R₀ b y ∧ n = .node .tuple [x, y] := by
  cases n with
  | tok t => simp [HasTy]
  | node k cs =>
    cases k <;> simp [HasTy] <;> grind

/-- `n` is a well-typed node of some type. -/
def Typed (R₀ : TokRef → Prop) (n : Node) : Prop := ∃ a, HasTy R₀ a n

theorem HasTys.typed {as : List Ty} {cs : List Node} (h : HasTys R₀ as cs) : ∀ c ∈ cs, Typed R₀ c := by
  induction as generalizing cs with
  | nil => simp_all
  | cons a as ih =>
    obtain ⟨c, cs, hc, hcs, rfl⟩ := hasTys_cons.1 h
    intro d hd
    rcases List.mem_cons.1 hd with rfl | hd
    · exact ⟨a, hc⟩
    · exact ih hcs d hd

/-- The children of a well-typed node: of the types of the fields if the node is not a container. -/
theorem Typed.cases {k : Kind} {cs : List Node} (h : Typed R₀ (.node k cs)) :
    (∀ c ∈ cs, Typed R₀ c) ∧ (k.isContainer = false → HasTys R₀ k.sig cs) := by
  obtain ⟨a, h⟩ := h
  cases a with
  | tok => simp at h
  | span =>
    obtain ⟨o, c, ho, hc, h⟩ := hasTy_span.1 h
    cases h
    refine ⟨fun d hd => ⟨.tok, ?_⟩, by simp [Kind.isContainer]⟩
    simp at hd ⊢
    rcases hd with rfl | rfl
    · exact ⟨o, ho, rfl⟩
    · exact ⟨c, hc, rfl⟩
  | cat c =>
    obtain ⟨k, cs, hk, hcs, h⟩ := hasTy_cat.1 h
    cases h
    exact ⟨hcs.typed, fun _ => hcs⟩
  | opt a =>
    rcases hasTy_opt.1 h with h | ⟨c, hc, h⟩
    · cases h; simp [Kind.isContainer]
    · cases h
      refine ⟨?_, by simp [Kind.isContainer]⟩
      intro d hd; simp at hd; subst hd; exact ⟨a, hc⟩
  | vec a =>
    obtain ⟨cs, hc, h⟩ := hasTy_vec.1 h
    cases h
    exact ⟨fun d hd => ⟨a, hc d hd⟩, by simp [Kind.isContainer]⟩
  | punct a =>
    obtain ⟨cs, hc, h⟩ := hasTy_punct.1 h
    cases h
    exact ⟨fun d hd => ⟨_, hc d hd⟩, by simp [Kind.isContainer]⟩
  | pair a =>
    rcases hasTy_pair.1 h with ⟨c, hc, h⟩ | ⟨c, t, hc, ht, h⟩
    · cases h
      refine ⟨?_, by simp [Kind.isContainer]⟩
      intro d hd; simp at hd; subst hd; exact ⟨a, hc⟩
    · cases h
      refine ⟨?_, by simp [Kind.isContainer]⟩
      intro d hd; simp at hd
      rcases hd with rfl | rfl
      · exact ⟨a, hc⟩
      · exact ⟨.tok, hasTy_tok.2 ⟨t, ht, rfl⟩⟩
  | tup a b =>
    obtain ⟨x, y, hx, hy, h⟩ := hasTy_tup.1 h
    cases h
    refine ⟨?_, by simp [Kind.isContainer]⟩
    intro d hd; simp at hd
    rcases hd with rfl | rfl
    · exact ⟨a, hx⟩
    · exact ⟨b, hy⟩

theorem Typed.children {n : Node} (h : Typed R₀ n) : ∀ c ∈ n.children, Typed R₀ c := by
  cases n with
  | tok t => simp
  | node k cs => exact h.cases.1

theorem Kind.plain_of_container {k : Kind} (h : k.isContainer = true) : k.layout = none := by
  cases k <;> simp_all [Kind.isContainer, Kind.layout]

theorem Typed.sig {k : Kind} {cs : List Node} (h : Typed R₀ (.node k cs)) {l : List Slot} (hl : k.layout = some l) :
    HasTys R₀ k.sig cs := by
  refine h.cases.2 ?_
  cases hk : k.isContainer
  · rfl
  · rw [Kind.plain_of_container hk] at hl; cases hl

end FM
