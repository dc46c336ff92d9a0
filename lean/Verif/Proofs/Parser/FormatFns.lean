import Verif.Proofs.Parser.FormatTac

/-! Helper lemmas: parser functions do not depend on trivia and positions. -/

namespace FM.Parser.Format
open FM.Spec FM.Parser

variable {α β : Type} {c : Cfg} {self : Rec}

theorem node_of_strip {k : Kind} {cs : List Node} {b : Node} (h : strip (Node.node k cs) = strip b) :
    ∃ cs', b = .node k cs' ∧ strip cs = strip cs' := by
  cases b <;> simp at h
  obtain ⟨rfl, h⟩ := h
  exact ⟨_, rfl, h⟩

theorem node_of_strip' {k : Kind} {cs : List Node} {b : Node} (h : strip b = strip (Node.node k cs)) :
    ∃ cs', b = .node k cs' ∧ strip cs' = strip cs := by
  obtain ⟨cs', h1, h2⟩ := node_of_strip h.symm
  exact ⟨cs', h1, h2.symm⟩

theorem sim_take : Sim take take := by
  unfold take
  sim

theorem sim_currentUnwrap : Sim currentUnwrap currentUnwrap := by
  unfold currentUnwrap
  sim

theorem sim_currentIs {p q : TokRef → Bool} (h : Blind p q) : Sim (currentIs p) (currentIs q) := by
  unfold currentIs
  refine sim_bind sim_current fun a b hab => ?_
  cases a <;> cases b <;> simp at hab
  · exact sim_pure rfl
  · exact sim_pure (congrArg strip (h _ _ (type_of_strip hab)))

theorem sim_peekIs {p q : TokRef → Bool} (h : Blind p q) : Sim (peekIs p) (peekIs q) := by
  unfold peekIs
  refine sim_bind sim_peek fun a b hab => ?_
  cases a <;> cases b <;> simp at hab
  · exact sim_pure rfl
  · exact sim_pure (congrArg strip (h _ _ (type_of_strip hab)))

theorem sim_takeIf {p q : TokRef → Bool} (h : Blind p q) : Sim (takeIf p) (takeIf q) := by
  unfold takeIf
  refine sim_bind sim_current fun a b hab => ?_
  cases a <;> cases b <;> simp at hab
  · exact sim_pure rfl
  · refine sim_ite (by rw [h _ _ (type_of_strip hab)]) (fun _ _ => ?_) fun _ _ => ?_
    · sim
    · sim

theorem sim_consumeIf {a1 : Symbol} :
    Sim (consumeIf a1) (consumeIf a1) := by
  unfold consumeIf
  sim

theorem sim_consumeIfAny {a1 : List Symbol} :
    Sim (consumeIfAny a1) (consumeIfAny a1) := by
  unfold consumeIfAny
  refine sim_bind (sim_takeIf fun t u h => ?_) fun x y h => ?_
  · have : t.isSymbol = u.isSymbol := by funext s; simp only [TokRef.isSymbol, h]
    rw [this]
  · sim

theorem sim_require {a1 : Symbol} {a2 : String} :
    Sim (require a1 a2) (require a1 a2) := by
  unfold require
  sim

theorem sim_requireWithToken {a1 : Symbol} {a2 : String} {a3 b3 : TokRef} (h3 : strip a3 = strip b3) :
    Sim (requireWithToken a1 a2 a3) (requireWithToken a1 a2 b3) := by
  unfold requireWithToken
  sim

theorem sim_emptyArgs :
    Sim (emptyArgs c) (emptyArgs c) := by
  unfold emptyArgs
  sim

theorem sim_newBody :
    Sim (newBody c) (newBody c) := by
  unfold newBody
  sim

theorem sim_newIf {a1 b1 : Node} (h1 : strip a1 = strip b1) {a2 b2 : Node} (h2 : strip a2 = strip b2) :
    Sim (newIf c a1 a2) (newIf c b1 b2) := by
  unfold newIf
  sim

theorem sim_newWhile {a1 b1 : Node} (h1 : strip a1 = strip b1) :
    Sim (newWhile c a1) (newWhile c b1) := by
  unfold newWhile
  sim

theorem sim_newDo {a1 b1 : Node} (h1 : strip a1 = strip b1) :
    Sim (newDo c a1) (newDo c b1) := by
  unfold newDo
  sim


theorem sim_requireWithRange {s : Symbol} {msg : String} {p q : M (TokRef × TokRef)} (h : Sim p q) :
    Sim (requireWithRange s msg p) (requireWithRange s msg q) := by
  unfold requireWithRange
  refine sim_bind (sim_takeIf fun t u h => by sim_cond) fun a b hab => ?_
  cases a <;> cases b <;> simp at hab
  · exact sim_pure (by simp [hab])
  · refine sim_bind h fun x y _ => ?_
    exact sim_bind (sim_tokenErrorRanged hab) fun _ _ _ => sim_pure rfl
  · exact sim_pure rfl

theorem sim_dropTrailing [Strip α] {msg : String} {a b : Punctuated α} (h : strip a = strip b) : Sim (dropTrailing msg a) (dropTrailing msg b) := by
  unfold dropTrailing
  sim

theorem sim_oneOrMoreLoop [Strip α] {p q : M (Res α)} (hp : Sim p q) {d : Symbol} {n : Nat} {a b : Punctuated α} (h : strip a = strip b) :
    Sim (oneOrMoreLoop p d n a) (oneOrMoreLoop q d n b) := by
  induction n generalizing a b with
  | zero => exact sim_diverge
  | succ n ih =>
    unfold oneOrMoreLoop
    refine sim_bind hp fun x y hxy => ?_
    sim

theorem sim_oneOrMore [Strip α] {p q : M (Res α)} (hp : Sim p q) {d : Symbol} : Sim (oneOrMore p d) (oneOrMore q d) := by
  unfold oneOrMore
  refine sim_bind sim_fuel fun x y hxy => ?_
  refine sim_bind (by cases hxy; exact sim_oneOrMoreLoop hp rfl) fun x y hxy => ?_
  have := pisEmpty_of_strip hxy
  sim

end FM.Parser.Format
