import Verif.Proofs.Parser.CountTypes

/-! Helper lemmas: counting tokens in expressions. -/

namespace FM.Parser.Count
open FM.Parser

variable [Wt] {c : Cfg} {s : Rec} {l : List TokRef} {d : Nat}

macro_rules | `(tactic| kspec) => `(tactic| (k_head dropTrailing; refine kcall (dropTrailing_cnt _ _) ?_; k_intro))

theorem kwp_nodeRange {n : Node} {Q : TokRef × TokRef → List TokRef → Nat → Prop} (h : ∀ t, Q t l d) : kwp (nodeRange n) l d Q := by
  unfold nodeRange
  split
  · exact kwp_pure (h _)
  · exact kwp_panic

theorem kwp_blockRange {b : Blk} {t : TokRef} {Q : TokRef × TokRef → List TokRef → Nat → Prop} (h : ∀ t, Q t l d) :
    kwp (blockRange b t) l d Q := by
  unfold blockRange
  split
  · exact kwp_nodeRange h
  · split
    · exact kwp_nodeRange h
    · exact kwp_pure (h _)
macro_rules | `(tactic| kspec) => `(tactic| (k_head blockRange; refine kwp_blockRange (fun _ => ?_)))

theorem expectBlockWithEnd_cnt (hs : RecC s) {name : String} {t : TokRef} (hl : l.length ≤ N) :
    kwp (expectBlockWithEnd s c name t) l d (Le 0 l d) := by
  unfold expectBlockWithEnd; kall
kuse expectBlockWithEnd (expectBlockWithEnd_cnt (by assumption) (by omega))

/-! ## Tables -/

theorem expectExpressionKey_cnt (hs : RecC s) {left : TokRef} (hl : l.length < N) :
    kwp (expectExpressionKey s left) l d (Le (Wt.f left) l d) := by
  unfold expectExpressionKey; kall
kuse expectExpressionKey (expectExpressionKey_cnt (by assumption) (by omega))

theorem nameKeyField_cnt (hs : RecC s) (hl : l.length < N) : kwp (nameKeyField s) l d (Le 0 l d) := by
  unfold nameKeyField; kall
kuse nameKeyField (nameKeyField_cnt (by assumption) (by omega))

theorem setField_cnt : kwp setField l d (Le 0 l d) := by
  unfold setField; kall
kuse setField setField_cnt

theorem kwp_fieldErrorToken {t : TokRef} {fs : Punctuated Node} {Q : TokRef → List TokRef → Nat → Prop} (h : ∀ t, Q t l d) :
    kwp (fieldErrorToken t fs) l d Q := by
  unfold fieldErrorToken
  split
  · exact kwp_lastToken h
  · exact kwp_pure (h _)
macro_rules | `(tactic| kspec) => `(tactic| (k_head fieldErrorToken; refine kwp_fieldErrorToken (fun _ => ?_)))

theorem noKeyField_cnt (hs : RecC s) {t : TokRef} {fs : Punctuated Node} (hl : l.length < N) : kwp (noKeyField s t fs) l d (Le 0 l d) := by
  unfold noKeyField; kall
kuse noKeyField (noKeyField_cnt (by assumption) (by omega))

theorem ctorField_cnt (hs : RecC s) {t : TokRef} {fs : Punctuated Node} (hl : l.length < N) : kwp (ctorField s c t fs) l d (Le 0 l d) := by
  unfold ctorField; kall
kuse ctorField (ctorField_cnt (by assumption) (by omega))

theorem ctorLoop_cnt (hs : RecC s) {left : TokRef} : ∀ (m : Nat) (l : List TokRef) (d : Nat) (fs : Punctuated Node), l.length < N →
    kwp (ctorLoop s c left m fs) l d (Le (Wt.f left + sz fs) l d)
  | 0, _, _, _, _ => kwp_diverge
  | m + 1, l, d, fs, hl => by
    have ih := ctorLoop_cnt hs (left := left) m
    unfold ctorLoop
    ksteps
    all_goals first | kfin | exact kcall (ih _ _ _ (by omega)) (fun _ _ _ _ _ => by kfin)
kuse ctorLoop (ctorLoop_cnt (by assumption) _ _ _ _ (by omega))

theorem forceTableConstructor_cnt (hs : RecC s) {left : TokRef} (hl : l.length < N) :
    kwp (forceTableConstructor s c left) l d (Le (Wt.f left) l d) := by
  unfold forceTableConstructor; kall
kuse forceTableConstructor (forceTableConstructor_cnt (by assumption) (by omega))

/-! ## Prefixes and suffixes -/

theorem parsePrefix_cnt (hs : RecC s) (hl : l.length ≤ N) : kwp (parsePrefix s c) l d (Le 0 l d) := by
  unfold parsePrefix; kall
kuse parsePrefix (parsePrefix_cnt (by assumption) (by omega))

theorem parseExpressionList_cnt (hs : RecC s) (hl : l.length < N) : kwp (parseExpressionList s) l d (Le 0 l d) :=
  oneOrMore_cnt hs.expr hl
kuse parseExpressionList (parseExpressionList_cnt (by assumption) (by omega))

theorem closeArguments_cnt {left : TokRef} {as : Punctuated Node} :
    kwp (closeArguments c left as) l d (Le (Wt.f left + sz as) l d) := by
  unfold closeArguments; kall
kuse closeArguments closeArguments_cnt

theorem parseArguments_cnt (hs : RecC s) (hl : l.length ≤ N) : kwp (parseArguments s c) l d (Le 0 l d) := by
  unfold parseArguments; kall
kuse parseArguments (parseArguments_cnt (by assumption) (by omega))

theorem dotSuffix_cnt {m : String} : kwp (dotSuffix m) l d (Le 0 l d) := by
  unfold dotSuffix; kall
kuse dotSuffix dotSuffix_cnt

theorem bracketSuffix_cnt (hs : RecC s) (hl : l.length ≤ N) : kwp (bracketSuffix s c) l d (Le 0 l d) := by
  unfold bracketSuffix; kall
kuse bracketSuffix (bracketSuffix_cnt (by assumption) (by omega))

theorem methodTypes_cnt (hs : RecC s) (hl : l.length ≤ N) : kwp (methodTypes s c) l d (Le 0 l d) := by
  unfold methodTypes; kall
kuse methodTypes (methodTypes_cnt (by assumption) (by omega))

theorem emptyArgs_cnt : kwp (emptyArgs c) l d (Le 0 l d) := by
  unfold emptyArgs; kall
kuse emptyArgs emptyArgs_cnt

theorem methodSuffix_cnt (hs : RecC s) (hl : l.length ≤ N) : kwp (methodSuffix s c) l d (Le 0 l d) := by
  unfold methodSuffix methodNode; kall
kuse methodSuffix (methodSuffix_cnt (by assumption) (by omega))

theorem callSuffix_cnt (hs : RecC s) (hl : l.length ≤ N) : kwp (callSuffix s c) l d (Le 0 l d) := by
  unfold callSuffix; kall
kuse callSuffix (callSuffix_cnt (by assumption) (by omega))

theorem instSuffix_cnt (hs : RecC s) (hl : l.length ≤ N) : kwp (instSuffix s) l d (Le 0 l d) := by
  unfold instSuffix; kall
kuse instSuffix (instSuffix_cnt (by assumption) (by omega))

theorem parseSuffix_cnt (hs : RecC s) (hl : l.length ≤ N) : kwp (parseSuffix s c) l d (Le 0 l d) := by
  unfold parseSuffix; kall
kuse parseSuffix (parseSuffix_cnt (by assumption) (by omega))

theorem suffixesLoop_cnt (hs : RecC s) : ∀ (m : Nat) (l : List TokRef) (d : Nat) (ss : List Node), l.length ≤ N →
    kwp (suffixesLoop s c m ss) l d (Le (sz ss) l d)
  | 0, _, _, _, _ => kwp_diverge
  | m + 1, l, d, ss, hl => by
    have ih := suffixesLoop_cnt hs m
    unfold suffixesLoop
    ksteps
    all_goals first | kfin | exact kcall (ih _ _ _ (by omega)) (fun _ _ _ _ _ => by kfin)
kuse suffixesLoop (suffixesLoop_cnt (by assumption) _ _ _ _ (by omega))

theorem parsePrefixAndSuffixes_cnt (hs : RecC s) (hl : l.length ≤ N) : kwp (parsePrefixAndSuffixes s c) l d (Le 0 l d) := by
  unfold parsePrefixAndSuffixes; kall
kuse parsePrefixAndSuffixes (parsePrefixAndSuffixes_cnt (by assumption) (by omega))

theorem sz_callNode (p : Pre) (ss : List Node) : sz (callNode p ss) = sz p + sz ss := by
  unfold callNode; kfin
theorem sz_varExprNode (p : Pre) (ss : List Node) : sz (varExprNode p ss) = sz p + sz ss := by
  unfold varExprNode; kfin
theorem sz_varNode (p : Pre) (ss : List Node) : sz (varNode p ss) = sz p + sz ss := by
  unfold varNode
  split
  · ksz
  · exact sz_varExprNode _ _
theorem sz_prefixExprNode (p : Pre) (ss : List Node) : sz (prefixExprNode p ss) = sz p + sz ss := by
  unfold prefixExprNode
  split
  · simp [sz_preExpr, sz_nil]
  · ksz
  · split
    · simp only [sz_node, sz_cons, sz_nil, sz_callNode, Nat.add_zero]
    · simp only [sz_node, sz_cons, sz_nil, sz_varExprNode, Nat.add_zero]

/-! ## Functions -/

theorem varargType_cnt (hs : RecC s) (hl : l.length < N) : kwp (varargType s) l d (Le 0 l d) := by
  unfold varargType; kall
kuse varargType (varargType_cnt (by assumption) (by omega))

theorem closeParams_cnt {ps : Punctuated Node} {ts : List Node} : kwp (closeParams ps ts) l d (Le (sz ps + sz ts) l d) := by
  unfold closeParams; kall
kuse closeParams closeParams_cnt

theorem ellipsisParam_cnt (hs : RecC s) {ps : Punctuated Node} {ts : List Node} (hl : l.length < N) :
    kwp (ellipsisParam s c ps ts) l d (Le (sz ps + sz ts) l d) := by
  unfold ellipsisParam; kall
kuse ellipsisParam (ellipsisParam_cnt (by assumption) (by omega))

theorem paramsLoop_cnt (hs : RecC s) : ∀ (m : Nat) (l : List TokRef) (d : Nat) (ps : Punctuated Node) (ts : List Node), l.length < N →
    kwp (paramsLoop s c m ps ts) l d (Le (sz ps + sz ts) l d)
  | 0, _, _, _, _, _ => kwp_diverge
  | m + 1, l, d, ps, ts, hl => by
    have ih := paramsLoop_cnt hs m
    unfold paramsLoop
    cases hc : c.feat.luau <;> simp only [↓reduceIte, Bool.false_eq_true]
    all_goals
      ksteps
      any_goals kfin
      all_goals first | kfin | exact kcall (ih _ _ _ _ (by omega)) (fun _ _ _ _ _ => by kfin)
kuse paramsLoop (paramsLoop_cnt (by assumption) _ _ _ _ _ (by omega))

theorem unfinishedBody_cnt {left : TokRef} {ps : Punctuated Node} : kwp (unfinishedBody c left ps) l d (Le (Wt.f left + sz ps) l d) := by
  have := sz_noTrailing ps
  unfold unfinishedBody; kall
kuse unfinishedBody unfinishedBody_cnt

theorem bodyReturnType_cnt (hs : RecC s) (hl : l.length < N) : kwp (bodyReturnType s c) l d (Le 0 l d) := by
  unfold bodyReturnType; kall
kuse bodyReturnType (bodyReturnType_cnt (by assumption) (by omega))

theorem bodyRest_cnt (hs : RecC s) {g : Option Node} {o e : TokRef} {ps : Punctuated Node} {ts : List Node} (hl : l.length < N) :
    kwp (bodyRest s c g o e ps ts) l d (Le (sz g + Wt.f o + Wt.f e + sz ps + sz ts) l d) := by
  unfold bodyRest; kall
kuse bodyRest (bodyRest_cnt (by assumption) (by omega))

theorem bodyParens_cnt (hs : RecC s) {g : Option Node} (hl : l.length < N) : kwp (bodyParens s c g) l d (Le (sz g) l d) := by
  unfold bodyParens; kall
kuse bodyParens (bodyParens_cnt (by assumption) (by omega))

theorem parseFunctionBody_cnt (hs : RecC s) (hl : l.length < N) : kwp (parseFunctionBody s c) l d (Le 0 l d) := by
  unfold parseFunctionBody; kall
kuse parseFunctionBody (parseFunctionBody_cnt (by assumption) (by omega))

theorem anonymousFunction_cnt (hs : RecC s) {as : List Node} (hl : l.length < N) :
    kwp (anonymousFunction s c as) l d (Le (sz as) l d) := by
  unfold anonymousFunction; kall
kuse anonymousFunction (anonymousFunction_cnt (by assumption) (by omega))

theorem attributedFunction_cnt (hs : RecC s) (hl : l.length < N) : kwp (attributedFunction s c) l d (Le 0 l d) := by
  unfold attributedFunction; kall
kuse attributedFunction (attributedFunction_cnt (by assumption) (by omega))

/-! ## `if` expressions and interpolated strings -/

theorem ifOperand_cnt (hs : RecC s) (hl : l.length < N) : kwp (ifOperand s) l d (Lo 0 l d) := by
  unfold ifOperand; kall
kuse ifOperand (ifOperand_cnt (by assumption) (by omega))

theorem ifPart_cnt (hs : RecC s) (hl : l.length < N) : kwp (ifPart s) l d (Lo 0 l d) := by
  unfold ifPart; kall
kuse ifPart (ifPart_cnt (by assumption) (by omega))

theorem elseIfExprs_cnt (hs : RecC s) : ∀ (m : Nat) (l : List TokRef) (d : Nat) (ps : List Node), l.length < N →
    kwp (elseIfExprs s m ps) l d (Le (sz ps) l d)
  | 0, _, _, _, _ => kwp_diverge
  | m + 1, l, d, ps, hl => by
    have ih := elseIfExprs_cnt hs m
    unfold elseIfExprs
    ksteps
    all_goals first | kfin | exact kcall (ih _ _ _ (by omega)) (fun _ _ _ _ _ => by kfin)
kuse elseIfExprs (elseIfExprs_cnt (by assumption) _ _ _ _ (by omega))

theorem expectIfElse_cnt (hs : RecC s) {t : TokRef} {k : Nat} (hf : Wt.f t ≤ k) (hk : 1 ≤ k) (hl : l.length < N) :
    kwp (expectIfElse s t) l d (Le k l d) := by
  unfold expectIfElse; kall
kuse expectIfElse (expectIfElse_cnt (by assumption) (by assumption) (by omega) (by omega))

theorem sz_interpBroken {first cur : TokRef} {ss : List Node} (h : ss = [] → cur = first) :
    sz (interpBroken first ss) ≤ Wt.f cur + sz ss := by
  unfold interpBroken
  split
  · rename_i he
    rw [h (List.isEmpty_iff.1 he)]
    kfin
  · have := Wt.stop
    kfin

theorem sz_interpBroken_append (first : TokRef) (ss : List Node) (n : Node) :
    sz (interpBroken first (ss ++ [n])) ≤ sz ss + sz n := by
  have := Wt.stop
  unfold interpBroken
  rw [if_neg (by simp)]
  kfin

theorem kwp_doubleBrace {t : TokRef} {Q : Bool → List TokRef → Nat → Prop} (h : Q false l d) : kwp (doubleBrace t) l d Q := by
  unfold doubleBrace
  ksteps
  all_goals exact h
macro_rules | `(tactic| kspec) => `(tactic| (k_head doubleBrace; refine kwp_doubleBrace ?_))

theorem kwp_skipBrace {Q : Unit → List TokRef → Nat → Prop} (h : Q () l d) : kwp (skipBrace false) l d Q := kwp_pure h
macro_rules | `(tactic| kspec) => `(tactic| (k_head skipBrace; refine kwp_skipBrace ?_))

theorem interpLoop_cnt (hs : RecC s) {first : TokRef} : ∀ (m : Nat) (l : List TokRef) (d : Nat) (cur : TokRef) (ss : List Node), l.length < N →
    (ss = [] → cur = first) → kwp (interpLoop s first m cur ss) l d (Le (Wt.f cur + sz ss) l d)
  | 0, _, _, _, _, _, _ => kwp_diverge
  | m + 1, l, d, cur, ss, hl, hc => by
    have ih := interpLoop_cnt hs (first := first) m
    have h1 := sz_interpBroken hc
    have h2 := sz_interpBroken_append first ss
    unfold interpLoop
    ksteps
    all_goals first
      | kfin
      | (refine Nat.le_trans (Nat.add_le_add_left (h2 _) _) ?_; kfin)
      | exact kcall (ih _ _ _ _ (by omega) (by simp)) (fun _ _ _ _ _ => by kfin)

theorem expectInterpolated_cnt (hs : RecC s) {t : TokRef} (hl : l.length < N) : kwp (expectInterpolated s t) l d (Le (Wt.f t) l d) := by
  unfold expectInterpolated
  ksteps
  exact kcall (interpLoop_cnt hs _ _ _ _ _ hl (fun _ => rfl)) (fun _ _ _ _ h => by ksz; simp at h ⊢; omega)
kuse expectInterpolated (expectInterpolated_cnt (by assumption) (by omega))

theorem interpolated_cnt (hs : RecC s) {k : InterpKind} (hl : l.length < N) : kwp (interpolated s k) l d (Le 0 l d) := by
  unfold interpolated; kall
kuse interpolated (interpolated_cnt (by assumption) (by omega))

/-! ## Operators -/

theorem parseUnary_cnt (hs : RecC s) {t : TokRef} (hl : l.length < N) : kwp (parseUnary s c t) l d (Le (Wt.f t) l d) := by
  unfold parseUnary; kall
kuse parseUnary (parseUnary_cnt (by assumption) (by omega))

theorem prefixExpression_cnt (hs : RecC s) (hl : l.length < N) : kwp (prefixExpression s c) l d (Le 0 l d) := by
  unfold prefixExpression
  ksteps
  all_goals first | kfin | (simp only [Le, sz_value, sz_prefixExprNode] at *; kfin)
kuse prefixExpression (prefixExpression_cnt (by assumption) (by omega))

theorem primaryBase_cnt (hs : RecC s) (hl : l.length < N) : kwp (primaryBase s c) l d (Le 0 l d) := by
  unfold primaryBase; kall
kuse primaryBase (primaryBase_cnt (by assumption) (by omega))

theorem parsePrimary_cnt (hs : RecC s) (hl : l.length < N) : kwp (parsePrimary s c) l d (Le 0 l d) := by
  unfold parsePrimary; kall
kuse parsePrimary (parsePrimary_cnt (by assumption) (by omega))

theorem rhsLoop_cnt (hs : RecC s) {p : Nat} {op : TokRef} : ∀ (m : Nat) (l : List TokRef) (d : Nat) (e : Node), l.length < N →
    kwp (rhsLoop s c p op m e) l d (Le (sz e) l d)
  | 0, _, _, _, _ => kwp_diverge
  | m + 1, l, d, e, hl => by
    have ih := rhsLoop_cnt hs (p := p) (op := op) m
    unfold rhsLoop
    ksteps
    all_goals first | kfin | exact kcall (ih _ _ _ (by omega)) (fun _ _ _ _ _ => by kfin)
kuse rhsLoop (rhsLoop_cnt (by assumption) _ _ _ _ (by omega))

theorem climbLoop_cnt (hs : RecC s) {p : Nat} : ∀ (m : Nat) (l : List TokRef) (d : Nat) (e : Node), l.length < N →
    kwp (climbLoop s c p m e) l d (Le (sz e) l d)
  | 0, _, _, _, _ => kwp_diverge
  | m + 1, l, d, e, hl => by
    have ih := climbLoop_cnt hs (p := p) m
    unfold climbLoop
    ksteps
    all_goals first | kfin | exact kcall (ih _ _ _ (by omega)) (fun _ _ _ _ _ => by kfin)
kuse climbLoop (climbLoop_cnt (by assumption) _ _ _ _ (by omega))

theorem parseClimb_cnt (hs : RecC s) {e : Node} {p : Nat} (hl : l.length < N) : kwp (parseClimb s c e p) l d (Le (sz e) l d) := by
  unfold parseClimb; kall
kuse parseClimb (parseClimb_cnt (by assumption) (by omega))

theorem parseExpression_cnt (hs : RecC s) (hl : l.length < N) : kwp (parseExpression s c) l d (Le 0 l d) := by
  unfold parseExpression; kall

end FM.Parser.Count
