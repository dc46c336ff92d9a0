import Verif.Proofs.Parser.FormatExpr

/-! Helper lemmas: statements do not depend on trivia and positions. -/

namespace FM.Parser.Format
open FM.Spec FM.Parser

variable {c : Cfg} {self : Rec}

theorem sim_functionNameLoop {n : Nat} {a2 b2 : Punctuated TokRef} (h2 : strip a2 = strip b2) :
    Sim (functionNameLoop n a2) (functionNameLoop n b2) := by
  induction n generalizing a2 b2 h2 with
  | zero => exact sim_diverge
  | succ n ih =>
    unfold functionNameLoop
    sim

theorem sim_expectFunctionName :
    Sim (expectFunctionName) (expectFunctionName) := by
  unfold expectFunctionName
  sim

theorem sim_expectFunctionDeclaration (hs : RecSim self) {a1 b1 : List Node} (h1 : strip a1 = strip b1) {a2 b2 : TokRef} (h2 : strip a2 = strip b2) :
    Sim (expectFunctionDeclaration self c a1 a2) (expectFunctionDeclaration self c b1 b2) := by
  unfold expectFunctionDeclaration
  sim

theorem sim_expectLocalFunction (hs : RecSim self) {a1 b1 : List Node} (h1 : strip a1 = strip b1) {a2 b2 : TokRef} (h2 : strip a2 = strip b2) {a3 b3 : TokRef} (h3 : strip a3 = strip b3) :
    Sim (expectLocalFunction self c a1 a2 a3) (expectLocalFunction self c b1 b2 b3) := by
  unfold expectLocalFunction
  sim

theorem sim_expectLocalAssignment (hs : RecSim self) {a1 b1 : TokRef} (h1 : strip a1 = strip b1) :
    Sim (expectLocalAssignment self c a1) (expectLocalAssignment self c b1) := by
  unfold expectLocalAssignment
  sim

theorem sim_localStmt (hs : RecSim self) :
    Sim (localStmt self c) (localStmt self c) := by
  unfold localStmt
  sim

theorem sim_blockOrEmpty (hs : RecSim self) {a1 : String} {a2 b2 : TokRef} (h2 : strip a2 = strip b2) :
    Sim (blockOrEmpty self c a1 a2) (blockOrEmpty self c a1 b2) := by
  unfold blockOrEmpty
  sim

theorem sim_numericForRest (hs : RecSim self) {a1 b1 : TokRef} (h1 : strip a1 = strip b1) {a2 b2 : Name} (h2 : strip a2 = strip b2) {a3 b3 : TokRef} (h3 : strip a3 = strip b3) {a4 b4 : Node} (h4 : strip a4 = strip b4) {a5 b5 : TokRef} (h5 : strip a5 = strip b5) {a6 b6 : Node} (h6 : strip a6 = strip b6) {a7 b7 : Option (TokRef × Node)} (h7 : strip a7 = strip b7) :
    Sim (numericForRest self c a1 a2 a3 a4 a5 a6 a7) (numericForRest self c b1 b2 b3 b4 b5 b6 b7) := by
  unfold numericForRest
  sim
  rcases a7 with _ | ⟨t, e⟩ <;> rcases b7 with _ | ⟨t', e'⟩ <;> simp only [strip_none, strip_some, reduceCtorEq] at h7
  · sim
  · simp at h7; sim

theorem sim_expectNumericFor (hs : RecSim self) {a1 b1 : TokRef} (h1 : strip a1 = strip b1) {a2 b2 : Name} (h2 : strip a2 = strip b2) :
    Sim (expectNumericFor self c a1 a2) (expectNumericFor self c b1 b2) := by
  unfold expectNumericFor
  sim

theorem sim_genericFor (hs : RecSim self) {a1 b1 : TokRef} (h1 : strip a1 = strip b1) {a2 b2 : Punctuated Name} (h2 : strip a2 = strip b2) :
    Sim (genericFor self c a1 a2) (genericFor self c b1 b2) := by
  unfold genericFor
  sim

theorem sim_expectFor (hs : RecSim self) {a1 b1 : TokRef} (h1 : strip a1 = strip b1) :
    Sim (expectFor self c a1) (expectFor self c b1) := by
  unfold expectFor
  sim

theorem sim_expectRepeat (hs : RecSim self) {a1 b1 : TokRef} (h1 : strip a1 = strip b1) :
    Sim (expectRepeat self c a1) (expectRepeat self c b1) := by
  unfold expectRepeat
  sim

theorem sim_expectWhile (hs : RecSim self) {a1 b1 : TokRef} (h1 : strip a1 = strip b1) :
    Sim (expectWhile self c a1) (expectWhile self c b1) := by
  unfold expectWhile
  sim

theorem sim_elseIfLoop (hs : RecSim self) {a1 b1 : Node} (h1 : strip a1 = strip b1) {n : Nat} {a3 b3 : List Node} (h3 : strip a3 = strip b3) :
    Sim (elseIfLoop self c a1 n a3) (elseIfLoop self c b1 n b3) := by
  induction n generalizing a3 b3 h3 with
  | zero => exact sim_diverge
  | succ n ih =>
    unfold elseIfLoop
    sim

theorem sim_elsePart (hs : RecSim self) :
    Sim (elsePart self) (elsePart self) := by
  unfold elsePart
  sim

theorem sim_expectIf (hs : RecSim self) {a1 b1 : TokRef} (h1 : strip a1 = strip b1) :
    Sim (expectIf self c a1) (expectIf self c b1) := by
  unfold expectIf
  sim
  rename_i x y hxy _ _ _ _ _
  rcases x with _ | ⟨t, e⟩ <;> rcases y with _ | ⟨t', e'⟩ <;> simp at hxy
  · sim
  · sim

theorem sim_parseCompound (hs : RecSim self) {a1 b1 : Node} (h1 : strip a1 = strip b1) :
    Sim (parseCompound self c a1) (parseCompound self c b1) := by
  unfold parseCompound
  sim

theorem call_split {β : Type} [Strip β] {v w : Node} (h : strip v = strip w) {f f' : List Node → M β} {g g' : M β}
    (hf : ∀ cs cs', strip cs = strip cs' → Sim (f cs) (f' cs')) (hg : Sim g g') :
    Sim (match some v with
      | some (.node .suffixCall cs) => f cs
      | _ => g)
      (match some w with
      | some (.node .suffixCall cs) => f' cs
      | _ => g') := by
  split
  · rename_i cs heq
    cases heq
    obtain ⟨cs', rfl, h'⟩ := node_of_strip h
    exact hf _ _ h'
  · rename_i hne
    split
    · rename_i cs heq
      cases heq
      obtain ⟨cs', rfl, h'⟩ := node_of_strip' h
      exact absurd rfl (hne cs')
    · exact hg

theorem sim_varsLoop (hs : RecSim self) {n : Nat} {a2 b2 : Punctuated Node} (h2 : strip a2 = strip b2) :
    Sim (varsLoop self c n a2) (varsLoop self c n b2) := by
  induction n generalizing a2 b2 h2 with
  | zero => exact sim_diverge
  | succ n ih =>
    unfold varsLoop
    sim
    rename_i t u htu p q hpq v w h
    refine call_split h (fun cs cs' h => ?_) ?_
    · sim
    · sim

theorem sim_assignment (hs : RecSim self) {a1 b1 : Node} (h1 : strip a1 = strip b1) :
    Sim (assignment self c a1) (assignment self c b1) := by
  unfold assignment
  sim

theorem sim_typeDeclarationRest (hs : RecSim self) {a1 b1 : TokRef} (h1 : strip a1 = strip b1) {a2 b2 : TokRef} (h2 : strip a2 = strip b2) {a3 b3 : Option Node} (h3 : strip a3 = strip b3) :
    Sim (typeDeclarationRest self c a1 a2 a3) (typeDeclarationRest self c b1 b2 b3) := by
  unfold typeDeclarationRest
  sim

theorem sim_expectTypeDeclaration (hs : RecSim self) {a1 b1 : TokRef} (h1 : strip a1 = strip b1) :
    Sim (expectTypeDeclaration self c a1) (expectTypeDeclaration self c b1) := by
  unfold expectTypeDeclaration
  sim

theorem sim_expectTypeFunction (hs : RecSim self) {a1 b1 : TokRef} (h1 : strip a1 = strip b1) {a2 b2 : TokRef} (h2 : strip a2 = strip b2) :
    Sim (expectTypeFunction self c a1 a2) (expectTypeFunction self c b1 b2) := by
  unfold expectTypeFunction
  sim

theorem sim_typeStmt (hs : RecSim self) {a1 b1 : TokRef} (h1 : strip a1 = strip b1) :
    Sim (typeStmt self c a1) (typeStmt self c b1) := by
  unfold typeStmt
  sim

theorem sim_exportStmt (hs : RecSim self) {a1 b1 : TokRef} (h1 : strip a1 = strip b1) :
    Sim (exportStmt self c a1) (exportStmt self c b1) := by
  unfold exportStmt
  sim

theorem sim_contextual (hs : RecSim self) {a1 b1 : Pre} (h1 : strip a1 = strip b1) {a2 b2 : List Node} (h2 : strip a2 = strip b2) {a3 b3 : TokRef} (h3 : strip a3 = strip b3) :
    Sim (contextual self c a1 a2 a3) (contextual self c b1 b2 b3) := by
  unfold contextual
  sim

theorem sim_expressionStmt (hs : RecSim self) :
    Sim (expressionStmt self c) (expressionStmt self c) := by
  unfold expressionStmt
  sim
  rename_i x y hxy
  obtain ⟨p, l⟩ := x
  obtain ⟨q, m⟩ := y
  simp at hxy
  obtain ⟨h1, h2⟩ := hxy
  dsimp only
  sim

theorem sim_gotoStmt :
    Sim (gotoStmt c) (gotoStmt c) := by
  unfold gotoStmt
  sim

theorem sim_labelStmt :
    Sim (labelStmt c) (labelStmt c) := by
  unfold labelStmt
  sim

theorem sim_attributedStmt (hs : RecSim self) :
    Sim (attributedStmt self c) (attributedStmt self c) := by
  unfold attributedStmt
  sim

theorem sim_doStmt (hs : RecSim self) :
    Sim (doStmt self c) (doStmt self c) := by
  unfold doStmt
  sim

theorem sim_parseStmt (hs : RecSim self) :
    Sim (parseStmt self c) (parseStmt self c) := by
  unfold parseStmt
  sim

theorem sim_parseLastStmt (hs : RecSim self) :
    Sim (parseLastStmt self) (parseLastStmt self) := by
  unfold parseLastStmt
  sim

theorem sim_blockEnd (hs : RecSim self) {a1 b1 : List (Node × Option TokRef)} (h1 : strip a1 = strip b1) :
    Sim (blockEnd self a1) (blockEnd self b1) := by
  unfold blockEnd
  sim

theorem sim_blockLoop (hs : RecSim self) {n : Nat} {a2 b2 : List (Node × Option TokRef)} (h2 : strip a2 = strip b2) :
    Sim (blockLoop self c n a2) (blockLoop self c n b2) := by
  induction n generalizing a2 b2 h2 with
  | zero => exact sim_diverge
  | succ n ih =>
    unfold blockLoop
    sim

theorem sim_parseBlock (hs : RecSim self) :
    Sim (parseBlock self c) (parseBlock self c) := by
  unfold parseBlock
  sim


end FM.Parser.Format
