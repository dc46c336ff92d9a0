import Verif.Proofs.Parser.CountExpr

/-! Helper lemmas: counting tokens in statements and blocks. -/

namespace FM.Parser.Count
open FM.Parser

variable [Wt] {c : Cfg} {s : Rec} {l : List TokRef} {d : Nat}

theorem newBody_cnt : kwp (newBody c) l d (Le 0 l d) := by unfold newBody; kall
kuse newBody newBody_cnt
theorem newIf_cnt {e o : Node} : kwp (newIf c e o) l d (Le (sz e + sz o) l d) := by unfold newIf; kall
kuse newIf newIf_cnt
theorem newWhile_cnt {e : Node} : kwp (newWhile c e) l d (Le (sz e) l d) := by unfold newWhile; kall
kuse newWhile newWhile_cnt
theorem newDo_cnt {b : Node} : kwp (newDo c b) l d (Le (sz b) l d) := by unfold newDo; kall
kuse newDo newDo_cnt

/-! ## Functions -/

theorem sz_functionNameNode (ns : Punctuated TokRef) (o : Option (TokRef × TokRef)) :
    sz (functionNameNode ns o) ≤ sz ns + sz o := by
  have h1 : sz (ns.pairs.map (Pair.map Node.tok)) ≤ sz ns.pairs := sz_map_le fun p => sz_pairMap (fun t => Nat.le_of_eq (sz_tok t)) p
  have h2 : sz (o.map fun p => Node.node .tuple [.tok p.1, .tok p.2]) ≤ sz o :=
    sz_optMap (fun a => by simp [sz_node, sz_cons, sz_nil, sz_tok, sz_prod, sz_ref]) o
  have h3 : sz ns = sz ns.pairs := rfl
  have h4 : sz (⟨ns.pairs.map (Pair.map Node.tok)⟩ : Punctuated Node) = sz (ns.pairs.map (Pair.map Node.tok)) := rfl
  unfold functionNameNode
  simp only [sz_node, sz_cons, sz_nil, sz_punct, sz_optNode, Nat.add_zero]
  omega

theorem functionNameLoop_cnt : ∀ (m : Nat) (l : List TokRef) (d : Nat) (ns : Punctuated TokRef),
    kwp (functionNameLoop m ns) l d (Le (sz ns) l d)
  | 0, _, _, _ => kwp_diverge
  | m + 1, l, d, ns => by
    have ih := functionNameLoop_cnt m
    have h := sz_functionNameNode ns
    have h0 := h none
    unfold functionNameLoop
    ksteps
    all_goals first
      | kfin
      | (rename_i hp; have := sz_pushPunctuated hp; exact kcall (ih _ _ _) (fun _ _ _ _ _ => by kfin))
      | (rename_i m' _ _ _ _ _ _ n' _ _ _ _ _ _ _ _; have := h (some (m', n')); kfin)
kuse functionNameLoop (functionNameLoop_cnt _ _ _ _)

theorem expectFunctionName_cnt : kwp expectFunctionName l d (Le 0 l d) := by
  unfold expectFunctionName; kall
kuse expectFunctionName expectFunctionName_cnt

theorem expectFunctionDeclaration_cnt (hs : RecC s) {as : List Node} {t : TokRef} (hl : l.length < N) :
    kwp (expectFunctionDeclaration s c as t) l d (Le (sz as + Wt.f t) l d) := by
  unfold expectFunctionDeclaration; kall
kuse expectFunctionDeclaration (expectFunctionDeclaration_cnt (by assumption) (by omega))

theorem expectLocalFunction_cnt (hs : RecC s) {as : List Node} {lo t : TokRef} (hl : l.length < N) :
    kwp (expectLocalFunction s c as lo t) l d (Le (sz as + Wt.f lo + Wt.f t) l d) := by
  unfold expectLocalFunction; kall
kuse expectLocalFunction (expectLocalFunction_cnt (by assumption) (by omega))

/-! ## `local` -/

theorem sz_names (c : Cfg) (ns : Punctuated Name) : sz (typeSpecs c ns) + sz (nameNodes ns) + sz (attrs c ns) ≤ sz ns := by
  have h1 : sz (nameNodes ns) = sz (ns.pairs.map (Pair.map fun n : Name => Node.tok n.name)) := sz_punct _
  have h2 : sz (typeSpecs c ns) ≤ sz (ns.pairs.map (fun p => optNode p.value.typeSpec)) := by
    unfold typeSpecs
    rw [sz_vec]
    split
    · exact Nat.le_refl _
    · exact Nat.zero_le _
  have h3 : sz (attrs c ns) ≤ sz (ns.pairs.map (fun p => optNode p.value.attr)) := by
    unfold attrs
    rw [sz_vec]
    split
    · exact Nat.le_refl _
    · exact Nat.zero_le _
  have h4 : ∀ ps : List (Pair Name), sz (ps.map (fun p => optNode p.value.typeSpec)) +
      sz (ps.map (Pair.map fun n : Name => Node.tok n.name)) + sz (ps.map (fun p => optNode p.value.attr)) ≤ sz ps := by
    intro ps
    induction ps with
    | nil => exact Nat.le_refl _
    | cons p ps ih =>
      simp only [List.map_cons, sz_cons, sz_optNode]
      cases p with
      | «end» v =>
        simp only [Pair.map, Pair.value, sz_end, sz_tok, sz_name] at *
        omega
      | punctuated v t =>
        simp only [Pair.map, Pair.value, sz_punctuated, sz_tok, sz_name] at *
        omega
  have h5 : sz ns = sz ns.pairs := rfl
  have := h4 ns.pairs
  omega

theorem sz_localNode (lo : TokRef) (ns : Punctuated Name) (e : Option TokRef) (es : Punctuated Node) :
    sz (localNode c lo ns e es) ≤ Wt.f lo + sz ns + sz e + sz es := by
  have := sz_names c ns
  unfold localNode
  kfin

theorem kwp_localNode {lo : TokRef} {ns : Punctuated Name} {e : Option TokRef} {es : Punctuated Node}
    {k : Nat} {l' : List TokRef} {d' : Nat} (h : mu l' + d' + (Wt.f lo + sz ns + sz e + sz es) ≤ mu l + d + k) :
    Le k l d (some (localNode c lo ns e es)) l' d' := by
  have := sz_localNode (c := c) lo ns e es
  kfin

theorem expectLocalAssignment_cnt (hs : RecC s) {lo : TokRef} (hl : l.length < N) :
    kwp (expectLocalAssignment s c lo) l d (Le (Wt.f lo) l d) := by
  unfold expectLocalAssignment
  refine kwp_bind (kcall (oneOrMore_cnt (fun l d hl => parseNameWithAttributes_cnt hs hl) hl) ?_)
  intro v l' d' h1 h2
  cases v <;> dsimp only <;> ksteps
  all_goals first | kfin | (refine kwp_localNode ?_; kfin)
kuse expectLocalAssignment (expectLocalAssignment_cnt (by assumption) (by omega))

theorem localStmt_cnt (hs : RecC s) (hl : l.length ≤ N) : kwp (localStmt s c) l d (Le 0 l d) := by
  unfold localStmt; kall
kuse localStmt (localStmt_cnt (by assumption) (by omega))

/-! ## Loops -/

theorem blockOrEmpty_cnt (hs : RecC s) {name : String} {t : TokRef} (hl : l.length ≤ N) :
    kwp (blockOrEmpty s c name t) l d (Le 0 l d) := by
  unfold blockOrEmpty; kall
kuse blockOrEmpty (blockOrEmpty_cnt (by assumption) (by omega))

theorem numericForRest_cnt (hs : RecC s) {fo : TokRef} {i : Name} {eq : TokRef} {start : Node} {comma : TokRef} {stop : Node}
    {step : Option (TokRef × Node)} (hl : l.length < N) : kwp (numericForRest s c fo i eq start comma stop step) l d
      (Le (Wt.f fo + sz i + Wt.f eq + sz start + Wt.f comma + sz stop + sz step) l d) := by
  unfold numericForRest
  cases step <;> kall
kuse numericForRest (numericForRest_cnt (by assumption) (by omega))

theorem expectNumericFor_cnt (hs : RecC s) {fo : TokRef} {i : Name} (hl : l.length < N) :
    kwp (expectNumericFor s c fo i) l d (Le (Wt.f fo + sz i) l d) := by
  unfold expectNumericFor; kall
kuse expectNumericFor (expectNumericFor_cnt (by assumption) (by omega))

theorem genericFor_cnt (hs : RecC s) {fo : TokRef} {ns : Punctuated Name} (hl : l.length < N) :
    kwp (genericFor s c fo ns) l d (Le (Wt.f fo + sz ns) l d) := by
  have := sz_names c ns
  unfold genericFor genericForNode; kall
kuse genericFor (genericFor_cnt (by assumption) (by omega))

theorem expectFor_cnt (hs : RecC s) {fo : TokRef} (hl : l.length < N) : kwp (expectFor s c fo) l d (Le (Wt.f fo) l d) := by
  unfold expectFor
  refine kwp_bind (kcall (oneOrMore_cnt (fun l d hl => parseNameWithTypes_cnt hs hl) hl) ?_)
  intro v l' d' h1 h2
  cases v with
  | notFound => dsimp only; kall
  | moved => dsimp only; kall
  | value ns =>
    dsimp only
    have h3 : sz ns = sz ns.pairs := rfl
    have h4 : ∀ p, ns.pairs = [p] → sz p.value ≤ sz ns := by
      intro p hp
      rw [h3, hp]
      cases p <;> simp [Pair.value, sz_end, sz_punctuated, sz_cons, sz_nil] <;> omega
    ksteps
    all_goals first | kfin | (have := h4 _ (by assumption); kfin)
kuse expectFor (expectFor_cnt (by assumption) (by omega))

theorem expectRepeat_cnt (hs : RecC s) {t : TokRef} (hl : l.length < N) : kwp (expectRepeat s c t) l d (Le (Wt.f t) l d) := by
  unfold expectRepeat; kall
kuse expectRepeat (expectRepeat_cnt (by assumption) (by omega))

theorem expectWhile_cnt (hs : RecC s) {t : TokRef} (hl : l.length < N) : kwp (expectWhile s c t) l d (Le (Wt.f t) l d) := by
  unfold expectWhile; kall
kuse expectWhile (expectWhile_cnt (by assumption) (by omega))

/-! ## `if` -/

/-- An unfinished `if` is built with its condition. -/
def ElseQ (e : Nat) (k : Nat) (l : List TokRef) (d : Nat) (v : ElseIfs) (l' : List TokRef) (d' : Nat) : Prop :=
  match v with
  | .done ps => mu l' + d' + sz ps ≤ mu l + d + k
  | .unfinished n => mu l' + d' + sz n ≤ mu l + d + k + e

theorem elseIfLoop_cnt (hs : RecC s) {e : Node} : ∀ (m : Nat) (l : List TokRef) (d : Nat) (ps : List Node), l.length < N →
    kwp (elseIfLoop s c e m ps) l d (ElseQ (sz e) (sz ps) l d)
  | 0, _, _, _, _ => kwp_diverge
  | m + 1, l, d, ps, hl => by
    have ih := elseIfLoop_cnt hs (e := e) m
    unfold elseIfLoop
    ksteps
    all_goals first
      | (simp only [ElseQ]; first | omega | kfin)
      | exact kcall (ih _ _ _ (by omega)) (fun v _ _ _ _ => by cases v <;> simp only [ElseQ] at * <;> first | omega | kfin)
kuse elseIfLoop (elseIfLoop_cnt (by assumption) _ _ _ _ (by omega))

theorem elsePart_cnt (hs : RecC s) (hl : l.length < N) : kwp (elsePart s) l d (Le 0 l d) := by
  unfold elsePart; kall
kuse elsePart (elsePart_cnt (by assumption) (by omega))

theorem expectIf_cnt (hs : RecC s) {t : TokRef} (hl : l.length < N) : kwp (expectIf s c t) l d (Le (Wt.f t) l d) := by
  unfold expectIf
  ksteps
  all_goals (try simp only [ElseQ] at *); kfin
kuse expectIf (expectIf_cnt (by assumption) (by omega))

/-! ## Statements that start with an expression -/

theorem parseCompound_cnt (hs : RecC s) {v : Node} (hl : l.length ≤ N) : kwp (parseCompound s c v) l d (Le (sz v) l d) := by
  unfold parseCompound; kall
kuse parseCompound (parseCompound_cnt (by assumption) (by omega))

theorem varsLoop_cnt (hs : RecC s) : ∀ (m : Nat) (l : List TokRef) (d : Nat) (vs : Punctuated Node), l.length ≤ N →
    kwp (varsLoop s c m vs) l d (Le (sz vs) l d)
  | 0, _, _, _, _ => kwp_diverge
  | m + 1, l, d, vs, hl => by
    have ih := varsLoop_cnt hs m
    unfold varsLoop
    ksteps
    all_goals first
      | kfin
      | (rename_i hp
         have := sz_pushPunctuated hp
         rw [sz_varNode] at this
         exact kcall (ih _ _ _ (by omega)) (fun _ _ _ _ _ => by kfin))
kuse varsLoop (varsLoop_cnt (by assumption) _ _ _ _ (by omega))

theorem assignment_cnt (hs : RecC s) {v : Node} (hl : l.length ≤ N) : kwp (assignment s c v) l d (Le (sz v) l d) := by
  unfold assignment; kall
kuse assignment (assignment_cnt (by assumption) (by omega))

theorem typeDeclarationRest_cnt (hs : RecC s) {t b : TokRef} {g : Option Node} {k : Nat} (hf : Wt.f b ≤ k) (hk : 1 ≤ k)
    (hl : l.length < N) : kwp (typeDeclarationRest s c t b g) l d (Le (Wt.f t + k + sz g) l d) := by
  unfold typeDeclarationRest; kall
kuse typeDeclarationRest (typeDeclarationRest_cnt (by assumption) (by assumption) (by omega) (by omega))

theorem expectTypeDeclaration_cnt (hs : RecC s) {t : TokRef} (hl : l.length < N) :
    kwp (expectTypeDeclaration s c t) l d (Le (Wt.f t) l d) := by
  unfold expectTypeDeclaration; kall
kuse expectTypeDeclaration (expectTypeDeclaration_cnt (by assumption) (by omega))

theorem expectTypeFunction_cnt (hs : RecC s) {t g : TokRef} (hl : l.length < N) :
    kwp (expectTypeFunction s c t g) l d (Le (Wt.f t + Wt.f g) l d) := by
  unfold expectTypeFunction; kall
kuse expectTypeFunction (expectTypeFunction_cnt (by assumption) (by omega))

theorem typeStmt_cnt (hs : RecC s) {t : TokRef} (hl : l.length < N) : kwp (typeStmt s c t) l d (Le (Wt.f t) l d) := by
  unfold typeStmt; kall
kuse typeStmt (typeStmt_cnt (by assumption) (by omega))

theorem exportStmt_cnt (hs : RecC s) {t : TokRef} (hl : l.length < N) : kwp (exportStmt s c t) l d (Le (Wt.f t) l d) := by
  unfold exportStmt; kall
kuse exportStmt (exportStmt_cnt (by assumption) (by omega))

theorem contextual_cnt (hs : RecC s) {p : Pre} {ss : List Node} {t : TokRef} (hl : l.length < N) :
    kwp (contextual s c p ss t) l d (Le (sz p + sz ss) l d) := by
  unfold contextual; kall
kuse contextual (contextual_cnt (by assumption) (by omega))

/-- Something was found. -/
def isVal : Res α → Bool
  | .value _ => true
  | _ => false

/-- A prefix takes a token. -/
theorem parsePrefix_len (hs : RecC s) (hl : l.length ≤ N) :
    kwp (parsePrefix s c) l d (fun v l' _ => isVal v = true → l'.length < l.length) := by
  unfold parsePrefix
  ksteps
  all_goals first | (intro _; omega) | (intro h; cases h)

theorem kwp_and {p : M α} {Q Q' : α → List TokRef → Nat → Prop} (h : kwp p l d Q) (h' : kwp p l d Q') :
    kwp p l d (fun v l' d' => Q v l' d' ∧ Q' v l' d') := by
  intro hl r hr he
  obtain ⟨l1, h1, h2, h3, h4⟩ := h hl r hr he
  obtain ⟨l2, h5, h6, h7, h8⟩ := h' hl r hr he
  have : l1 = l2 := (List.map_inj_right (fun _ _ h => by cases h; rfl)).1 (h1.symm.trans h5)
  subst this
  exact ⟨l1, h1, h2, h3, h4, h8⟩

theorem parsePrefixAndSuffixes_len (hs : RecC s) (hl : l.length ≤ N) :
    kwp (parsePrefixAndSuffixes s c) l d (fun v l' _ => isVal v = true → l'.length < l.length) := by
  unfold parsePrefixAndSuffixes
  refine kwp_bind (kcall (parsePrefix_len hs hl) ?_)
  intro v l' d' h1 h2
  cases v with
  | value p =>
    have := h2 rfl
    ksteps
    intro _
    omega
  | moved => exact kwp_pure (fun h => by cases h)
  | notFound => exact kwp_pure (fun h => by cases h)

theorem expressionStmt_cnt (hs : RecC s) (hl : l.length ≤ N) : kwp (expressionStmt s c) l d (Le 0 l d) := by
  unfold expressionStmt
  refine kwp_bind (kcall (kwp_and (parsePrefixAndSuffixes_cnt hs hl) (parsePrefixAndSuffixes_len hs hl)) ?_)
  intro v l' d' h1 h2
  cases v with
  | value p =>
    have h3 := h2.2 rfl
    have h4 := h2.1
    clear h2
    have h5 : sz (callNode p.1 p.2) = sz p.1 + sz p.2 := sz_callNode _ _
    have h6 : sz (varNode p.1 p.2) = sz p.1 + sz p.2 := sz_varNode _ _
    kall
  | moved => exact kwp_pure h2.1
  | notFound => exact kwp_panic
kuse expressionStmt (expressionStmt_cnt (by assumption) (by omega))

/-! ## `goto`, labels and attributes -/

theorem gotoStmt_cnt : kwp (gotoStmt c) l d (Le 0 l d) := by
  unfold gotoStmt; kall
kuse gotoStmt gotoStmt_cnt

theorem labelStmt_cnt : kwp (labelStmt c) l d (Le 0 l d) := by
  unfold labelStmt; kall
kuse labelStmt labelStmt_cnt

theorem attributedStmt_cnt (hs : RecC s) (hl : l.length ≤ N) : kwp (attributedStmt s c) l d (Le 0 l d) := by
  unfold attributedStmt; kall
kuse attributedStmt (attributedStmt_cnt (by assumption) (by omega))

/-! ## Statements and blocks -/

theorem doStmt_cnt (hs : RecC s) (hl : l.length ≤ N) : kwp (doStmt s c) l d (Le 0 l d) := by
  unfold doStmt; kall
kuse doStmt (doStmt_cnt (by assumption) (by omega))

theorem parseStmt_cnt (hs : RecC s) (hl : l.length ≤ N) : kwp (parseStmt s c) l d (Le 0 l d) := by
  unfold parseStmt; kall
kuse parseStmt (parseStmt_cnt (by assumption) (by omega))

theorem parseLastStmt_cnt (hs : RecC s) (hl : l.length ≤ N) : kwp (parseLastStmt s) l d (Le 0 l d) := by
  unfold parseLastStmt returnNode; kall
kuse parseLastStmt (parseLastStmt_cnt (by assumption) (by omega))

theorem blockEnd_cnt (hs : RecC s) {ss : List (Node × Option TokRef)} (hl : l.length ≤ N) :
    kwp (blockEnd s ss) l d (Le (sz ss) l d) := by
  unfold blockEnd; kall
kuse blockEnd (blockEnd_cnt (by assumption) (by omega))

theorem blockLoop_cnt (hs : RecC s) : ∀ (m : Nat) (l : List TokRef) (d : Nat) (ss : List (Node × Option TokRef)), l.length ≤ N →
    kwp (blockLoop s c m ss) l d (Le (sz ss) l d)
  | 0, _, _, _, _ => kwp_diverge
  | m + 1, l, d, ss, hl => by
    have ih := blockLoop_cnt hs m
    unfold blockLoop
    ksteps <;> (try injections) <;> (try subst_vars)
    all_goals first | kfin | exact kcall (ih _ _ _ (by omega)) (fun _ _ _ _ _ => by kfin)

theorem parseBlock_cnt (hs : RecC s) (hl : l.length ≤ N) : kwp (parseBlock s c) l d (Le 0 l d) := by
  unfold parseBlock
  ksteps
  exact kcall (blockLoop_cnt hs _ _ _ _ hl) (fun _ _ _ _ _ => by kfin)

/-! ## The parsers -/

theorem parsers_cnt : ∀ n, RecC (parsers c n)
  | 0 => ⟨fun _ _ _ => kwp_diverge, fun _ _ _ => kwp_diverge, fun _ _ _ => kwp_diverge, fun _ _ _ _ _ => kwp_diverge,
      fun _ _ _ => kwp_diverge, fun _ _ _ => kwp_diverge⟩
  | n + 1 =>
    have ih := parsers_cnt n
    ⟨fun _ _ h => parseBlock_cnt ih h, fun _ _ h => parseExpression_cnt ih h, fun _ _ h => parsePrimary_cnt ih h,
      fun _ _ _ _ h => parseClimb_cnt ih h, fun _ _ h => parseType_cnt ih h, fun _ _ h => parseTypeOrPack_cnt ih h⟩

end FM.Parser.Count
