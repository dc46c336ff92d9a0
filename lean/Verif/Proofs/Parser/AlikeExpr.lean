import Verif.Proofs.Parser.AlikeTypes

/-! Helper lemmas: expressions do not depend on names, numbers and strings. -/

namespace FM.Parser.Alike
open FM.Spec FM.Parser

variable {c : Cfg} {self : Rec}

theorem sim_nodeRange {a1 b1 : Node} (h1 : strip a1 = strip b1) :
    Sim (nodeRange a1) (nodeRange b1) := by
  unfold nodeRange
  have h := next_strip h1
  have h' : strip (Tokens.nextBack (Tokens.next a1.items).2).1 = strip (Tokens.nextBack (Tokens.next b1.items).2).1 := by
    rw [(nextBack_spec _).1, (nextBack_spec _).1, (next_spec _).2, (next_spec _).2, (items_spec _).1, (items_spec _).1,
      ← strip_getLast, ← strip_getLast, ← strip_tail, ← strip_tail, ← tokens_strip, ← tokens_strip, h1]
  revert h h'
  generalize Tokens.next a1.items = x
  generalize Tokens.next b1.items = y
  obtain ⟨x1, x2⟩ := x
  obtain ⟨y1, y2⟩ := y
  intro h h'
  dsimp only at h h'
  cases x1 <;> cases y1 <;> simp only [strip_none, strip_some, reduceCtorEq, Option.some.injEq] at h
  · exact sim_panic
  · refine sim_pure ?_
    simp only [strip_mk, h, Prod.mk.injEq, true_and]
    revert h'
    generalize x2.nextBack.fst = x
    generalize y2.nextBack.fst = y
    intro h'
    cases x <;> cases y <;> simp at h' ⊢ <;> assumption

theorem sim_blockRange {a1 b1 : Blk} (h1 : strip a1 = strip b1) {a2 b2 : TokRef} (h2 : strip a2 = strip b2) :
    Sim (blockRange a1 a2) (blockRange b1 b2) := by
  unfold blockRange
  sim

theorem sim_expectBlockWithEnd (hs : RecSim self) {a1 : String} {a2 b2 : TokRef} (h2 : strip a2 = strip b2) :
    Sim (expectBlockWithEnd self c a1 a2) (expectBlockWithEnd self c a1 b2) := by
  unfold expectBlockWithEnd
  sim

theorem sim_expectExpressionKey (hs : RecSim self) {a1 b1 : TokRef} (h1 : strip a1 = strip b1) :
    Sim (expectExpressionKey self a1) (expectExpressionKey self b1) := by
  unfold expectExpressionKey
  sim

theorem sim_nameKeyField (hs : RecSim self) :
    Sim (nameKeyField self) (nameKeyField self) := by
  unfold nameKeyField
  sim

theorem sim_setField :
    Sim (setField) (setField) := by
  unfold setField
  sim

theorem sim_fieldErrorToken {a1 b1 : TokRef} (h1 : strip a1 = strip b1) {a2 b2 : Punctuated Node} (h2 : strip a2 = strip b2) :
    Sim (fieldErrorToken a1 a2) (fieldErrorToken b1 b2) := by
  unfold fieldErrorToken
  sim

theorem sim_noKeyField (hs : RecSim self) {a1 b1 : TokRef} (h1 : strip a1 = strip b1) {a2 b2 : Punctuated Node} (h2 : strip a2 = strip b2) :
    Sim (noKeyField self a1 a2) (noKeyField self b1 b2) := by
  unfold noKeyField
  sim

theorem sim_ctorField (hs : RecSim self) {a1 b1 : TokRef} (h1 : strip a1 = strip b1) {a2 b2 : Punctuated Node} (h2 : strip a2 = strip b2) :
    Sim (ctorField self c a1 a2) (ctorField self c b1 b2) := by
  unfold ctorField
  sim

theorem sim_ctorLoop (hs : RecSim self) {a1 b1 : TokRef} (h1 : strip a1 = strip b1) {n : Nat} {a3 b3 : Punctuated Node} (h3 : strip a3 = strip b3) :
    Sim (ctorLoop self c a1 n a3) (ctorLoop self c b1 n b3) := by
  induction n generalizing a3 b3 h3 with
  | zero => exact sim_diverge
  | succ n ih =>
    unfold ctorLoop
    sim

theorem sim_forceTableConstructor (hs : RecSim self) {a1 b1 : TokRef} (h1 : strip a1 = strip b1) :
    Sim (forceTableConstructor self c a1) (forceTableConstructor self c b1) := by
  unfold forceTableConstructor
  sim

theorem sim_parsePrefix (hs : RecSim self) :
    Sim (parsePrefix self c) (parsePrefix self c) := by
  unfold parsePrefix
  sim

theorem sim_parseExpressionList (hs : RecSim self) :
    Sim (parseExpressionList self) (parseExpressionList self) := by
  unfold parseExpressionList
  sim

theorem sim_closeArguments {a1 b1 : TokRef} (h1 : strip a1 = strip b1) {a2 b2 : Punctuated Node} (h2 : strip a2 = strip b2) :
    Sim (closeArguments c a1 a2) (closeArguments c b1 b2) := by
  unfold closeArguments
  sim

theorem sim_parseArguments (hs : RecSim self) :
    Sim (parseArguments self c) (parseArguments self c) := by
  unfold parseArguments
  sim

theorem sim_dotSuffix {a1 : String} :
    Sim (dotSuffix a1) (dotSuffix a1) := by
  unfold dotSuffix
  sim

theorem sim_bracketSuffix (hs : RecSim self) :
    Sim (bracketSuffix self c) (bracketSuffix self c) := by
  unfold bracketSuffix
  sim

theorem sim_methodTypes (hs : RecSim self) :
    Sim (methodTypes self c) (methodTypes self c) := by
  unfold methodTypes
  sim

theorem sim_methodSuffix (hs : RecSim self) :
    Sim (methodSuffix self c) (methodSuffix self c) := by
  unfold methodSuffix
  sim

theorem sim_callSuffix (hs : RecSim self) :
    Sim (callSuffix self c) (callSuffix self c) := by
  unfold callSuffix
  sim

theorem sim_instSuffix (hs : RecSim self) :
    Sim (instSuffix self) (instSuffix self) := by
  unfold instSuffix
  sim

theorem sim_parseSuffix (hs : RecSim self) :
    Sim (parseSuffix self c) (parseSuffix self c) := by
  unfold parseSuffix
  sim

theorem sim_suffixesLoop (hs : RecSim self) {n : Nat} {a2 b2 : List Node} (h2 : strip a2 = strip b2) :
    Sim (suffixesLoop self c n a2) (suffixesLoop self c n b2) := by
  induction n generalizing a2 b2 h2 with
  | zero => exact sim_diverge
  | succ n ih =>
    unfold suffixesLoop
    sim

theorem sim_parsePrefixAndSuffixes (hs : RecSim self) :
    Sim (parsePrefixAndSuffixes self c) (parsePrefixAndSuffixes self c) := by
  unfold parsePrefixAndSuffixes
  sim

theorem sim_varargType (hs : RecSim self) :
    Sim (varargType self) (varargType self) := by
  unfold varargType
  sim

theorem sim_closeParams {a1 b1 : Punctuated Node} (h1 : strip a1 = strip b1) {a2 b2 : List Node} (h2 : strip a2 = strip b2) :
    Sim (closeParams a1 a2) (closeParams b1 b2) := by
  unfold closeParams
  sim

theorem sim_ellipsisParam (hs : RecSim self) {a1 b1 : Punctuated Node} (h1 : strip a1 = strip b1) {a2 b2 : List Node} (h2 : strip a2 = strip b2) :
    Sim (ellipsisParam self c a1 a2) (ellipsisParam self c b1 b2) := by
  unfold ellipsisParam
  sim

theorem sim_paramsLoop (hs : RecSim self) {n : Nat} {a2 b2 : Punctuated Node} (h2 : strip a2 = strip b2) {a3 b3 : List Node} (h3 : strip a3 = strip b3) :
    Sim (paramsLoop self c n a2 a3) (paramsLoop self c n b2 b3) := by
  induction n generalizing a2 b2 h2 a3 b3 h3 with
  | zero => exact sim_diverge
  | succ n ih =>
    unfold paramsLoop
    sim

theorem sim_unfinishedBody {a1 b1 : TokRef} (h1 : strip a1 = strip b1) {a2 b2 : Punctuated Node} (h2 : strip a2 = strip b2) :
    Sim (unfinishedBody c a1 a2) (unfinishedBody c b1 b2) := by
  unfold unfinishedBody
  sim

theorem sim_bodyReturnType (hs : RecSim self) :
    Sim (bodyReturnType self c) (bodyReturnType self c) := by
  unfold bodyReturnType
  sim

theorem sim_bodyRest (hs : RecSim self) {a1 b1 : Option Node} (h1 : strip a1 = strip b1) {a2 b2 : TokRef} (h2 : strip a2 = strip b2) {a3 b3 : TokRef} (h3 : strip a3 = strip b3) {a4 b4 : Punctuated Node} (h4 : strip a4 = strip b4) {a5 b5 : List Node} (h5 : strip a5 = strip b5) :
    Sim (bodyRest self c a1 a2 a3 a4 a5) (bodyRest self c b1 b2 b3 b4 b5) := by
  unfold bodyRest
  sim

theorem sim_bodyParens (hs : RecSim self) {a1 b1 : Option Node} (h1 : strip a1 = strip b1) :
    Sim (bodyParens self c a1) (bodyParens self c b1) := by
  unfold bodyParens
  sim

theorem sim_parseFunctionBody (hs : RecSim self) :
    Sim (parseFunctionBody self c) (parseFunctionBody self c) := by
  unfold parseFunctionBody
  sim

theorem sim_anonymousFunction (hs : RecSim self) {a1 b1 : List Node} (h1 : strip a1 = strip b1) :
    Sim (anonymousFunction self c a1) (anonymousFunction self c b1) := by
  unfold anonymousFunction
  sim

theorem sim_attributedFunction (hs : RecSim self) :
    Sim (attributedFunction self c) (attributedFunction self c) := by
  unfold attributedFunction
  sim

theorem sim_ifOperand (hs : RecSim self) :
    Sim (ifOperand self) (ifOperand self) := by
  unfold ifOperand
  sim

theorem sim_ifPart (hs : RecSim self) :
    Sim (ifPart self) (ifPart self) := by
  unfold ifPart
  sim

theorem sim_elseIfExprs (hs : RecSim self) {n : Nat} {a2 b2 : List Node} (h2 : strip a2 = strip b2) :
    Sim (elseIfExprs self n a2) (elseIfExprs self n b2) := by
  induction n generalizing a2 b2 h2 with
  | zero => exact sim_diverge
  | succ n ih =>
    unfold elseIfExprs
    sim

theorem sim_expectIfElse (hs : RecSim self) {a1 b1 : TokRef} (h1 : strip a1 = strip b1) :
    Sim (expectIfElse self a1) (expectIfElse self b1) := by
  unfold expectIfElse
  sim

theorem sim_skipBrace {a1 : Bool} :
    Sim (skipBrace a1) (skipBrace a1) := by
  unfold skipBrace
  sim

theorem sim_doubleBrace {t u : TokRef} (h : strip t = strip u) (hi : t.token.type.kind = .interpolatedString) :
    Sim (doubleBrace t) (doubleBrace u) := by
  unfold doubleBrace
  have := trailing_of_strip h hi
  sim

theorem kind_of_interpKind {t : TokRef} {k : InterpKind} (h : interpKind t = some k) : t.token.type.kind = .interpolatedString := by
  unfold interpKind at h
  split at h
  · rename_i hk; rw [hk]; rfl
  · cases h

theorem interpKind_of {t u : TokRef} (h : strip t = strip u) : interpKind t = interpKind u := by
  rw [interpKind_faded, type_of_strip h, ← interpKind_faded]

theorem sim_interpLoop (hs : RecSim self) {a1 b1 : TokRef} (h1 : strip a1 = strip b1) {n : Nat} {a2 b2 : TokRef} (h2 : strip a2 = strip b2)
    (hi : a2.token.type.kind = .interpolatedString) {a3 b3 : List Node} (h3 : strip a3 = strip b3) :
    Sim (interpLoop self a1 n a2 a3) (interpLoop self b1 n b2 b3) := by
  induction n generalizing a2 b2 a3 b3 with
  | zero => exact sim_diverge
  | succ n ih =>
    unfold interpLoop
    refine sim_bind (sim_doubleBrace h2 hi) fun d d' hd => ?_
    cases hd
    sim_step
    · exact hs.expr
    · sim_step
      · rename_i x y hxy
        sim_step
        · sim
        · refine sim_current_bind (by dsimp only; sim) fun t u htu => ?_
          dsimp only
          have hk := interpKind_of htu
          cases hki : interpKind t with
          | none =>
            rw [hki] at hk
            rw [← hk]
            refine .of ?_
            dsimp only
            sim
          | some k =>
            rw [hki] at hk
            rw [← hk]
            cases k
            case end_ =>
              refine .of ?_
              dsimp only
              sim
            all_goals
              dsimp only
              refine SimAt.consume_bind ?_
              dsimp only
              exact ih htu (kind_of_interpKind hki) (by simp [*])
      · sim
      · sim

theorem sim_expectInterpolated (hs : RecSim self) {a1 b1 : TokRef} (h1 : strip a1 = strip b1)
    (hi : a1.token.type.kind = .interpolatedString) : Sim (expectInterpolated self a1) (expectInterpolated self b1) := by
  unfold expectInterpolated
  refine sim_bind sim_fuel fun n m h => ?_
  cases h
  exact sim_interpLoop hs h1 h1 hi rfl

theorem sim_interpolated (hs : RecSim self) {k : InterpKind} {t u : TokRef} (h : strip t = strip u)
    (hi : t.token.type.kind = .interpolatedString) : SimAt t u (interpolated self k) (interpolated self k) := by
  unfold interpolated
  refine SimAt.take_bind ?_
  cases k <;> dsimp only
  case begin =>
    refine sim_bind (sim_expectInterpolated hs h hi) fun a b hab => ?_
    sim
  all_goals sim

theorem sim_parseUnary (hs : RecSim self) {a1 b1 : TokRef} (h1 : strip a1 = strip b1) (h2 : a1.token.type = b1.token.type) :
    Sim (parseUnary self c a1) (parseUnary self c b1) := by
  unfold parseUnary
  have h3 := unaryMessage_of h2
  sim

theorem sim_prefixExpression (hs : RecSim self) :
    Sim (prefixExpression self c) (prefixExpression self c) := by
  unfold prefixExpression
  sim

theorem type_of_startsUnary {t u : TokRef} (h : faded t.token.type = faded u.token.type) (hs : startsUnary c t = true) :
    t.token.type = u.token.type := by
  simp only [startsUnary, Bool.or_eq_true, Bool.and_eq_true] at hs
  rcases hs with ((hs | hs) | hs) | ⟨_, hs⟩ <;> exact symbol_of h hs

theorem _root_.FM.Parser.Alike.SimAt.ite' {α : Type} [Strip α] {t u : TokRef} {a b : Bool} {p q p' q' : M α} (hc : a = b)
    (h1 : a = true → SimAt t u p p') (h2 : SimAt t u q q') : SimAt t u (if a then p else q) (if b then p' else q') := by
  subst hc
  cases a
  · exact h2
  · exact h1 rfl

theorem sim_primaryBase (hs : RecSim self) :
    Sim (primaryBase self c) (primaryBase self c) := by
  unfold primaryBase
  refine sim_current_bind (by dsimp only; sim) fun t u h => ?_
  have ht := type_of_strip h
  dsimp only
  iterate 6 (refine SimAt.ite (by sim_cond) (.of (by sim)) ?_)
  refine SimAt.ite' (by sim_cond) (fun hu => SimAt.take_bind (sim_parseUnary hs h (type_of_startsUnary ht hu))) ?_
  iterate 2 (refine SimAt.ite (by sim_cond) (.of (by sim)) ?_)
  rw [interpKind_of h]
  cases hk : interpKind u with
  | none => exact .of (by dsimp only; sim)
  | some k =>
    dsimp only
    refine SimAt.ite Iff.rfl (sim_interpolated hs h (kind_of_interpKind ((interpKind_of h).trans hk))) (.of (by sim))

theorem sim_parsePrimary (hs : RecSim self) :
    Sim (parsePrimary self c) (parsePrimary self c) := by
  unfold parsePrimary
  sim

theorem sim_rhsLoop (hs : RecSim self) {a1 : Nat} {a2 b2 : TokRef} (h2 : strip a2 = strip b2) {n : Nat} {a4 b4 : Node} (h4 : strip a4 = strip b4) :
    Sim (rhsLoop self c a1 a2 n a4) (rhsLoop self c a1 b2 n b4) := by
  induction n generalizing a4 b4 h4 with
  | zero => exact sim_diverge
  | succ n ih =>
    unfold rhsLoop
    sim

theorem sim_climbLoop (hs : RecSim self) {a1 : Nat} {n : Nat} {a3 b3 : Node} (h3 : strip a3 = strip b3) :
    Sim (climbLoop self c a1 n a3) (climbLoop self c a1 n b3) := by
  induction n generalizing a3 b3 h3 with
  | zero => exact sim_diverge
  | succ n ih =>
    unfold climbLoop
    sim

theorem sim_parseClimb (hs : RecSim self) {a1 b1 : Node} (h1 : strip a1 = strip b1) {a2 : Nat} :
    Sim (parseClimb self c a1 a2) (parseClimb self c b1 a2) := by
  unfold parseClimb
  sim

theorem sim_parseExpression (hs : RecSim self) :
    Sim (parseExpression self c) (parseExpression self c) := by
  unfold parseExpression
  sim


end FM.Parser.Alike
