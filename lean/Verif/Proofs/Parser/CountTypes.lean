import Verif.Proofs.Parser.Count

/-! Helper lemmas: counting tokens in Luau types. -/

namespace FM.Parser.Count
open FM.Parser

variable [Wt] {c : Cfg} {s : Rec} {l : List TokRef} {d : Nat}

theorem parseName_cnt : kwp parseName l d (Le 0 l d) := by unfold parseName; kall
kuse parseName parseName_cnt

theorem genericPack_cnt : kwp genericPack l d (Le 0 l d) := by unfold genericPack; kall
kuse genericPack genericPack_cnt

theorem parseTypePack_cnt (hs : RecC s) (hl : l.length < N) : kwp (parseTypePack s) l d (Le 0 l d) := by
  unfold parseTypePack; kall
kuse parseTypePack (parseTypePack_cnt (by assumption) (by omega))

theorem parseReturnType_cnt (hs : RecC s) (hl : l.length < N) : kwp (parseReturnType s) l d (Lo 0 l d) := by
  unfold parseReturnType; kall
kuse parseReturnType (parseReturnType_cnt (by assumption) (by omega))

theorem genericParamsLoop_cnt (hs : RecC s) : ∀ (m : Nat) (l : List TokRef) (d : Nat) (g : Punctuated Node), l.length < N →
    kwp (genericParamsLoop s m g) l d (Lo (sz g) l d)
  | 0, _, _, _, _ => kwp_diverge
  | m + 1, l, d, g, hl => by
    have ih := genericParamsLoop_cnt hs m
    unfold genericParamsLoop
    ksteps
    all_goals first | kfin | exact kcall (ih _ _ _ (by omega)) (fun _ _ _ _ _ => by kfin)
kuse genericParamsLoop (genericParamsLoop_cnt (by assumption) _ _ _ _ (by omega))

theorem expectGenericTypeParams_cnt (hs : RecC s) {left : TokRef} {k : Nat} (hf : Wt.f left ≤ k) (hk : 1 ≤ k) (hl : l.length < N) :
    kwp (expectGenericTypeParams s left) l d (Le k l d) := by
  unfold expectGenericTypeParams; kall
kuse expectGenericTypeParams (expectGenericTypeParams_cnt (by assumption) (by assumption) (by omega) (by omega))

theorem expectTypeInstantiation_cnt (hs : RecC s) {left : TokRef} (hl : l.length < N) :
    kwp (expectTypeInstantiation s left) l d (Le (Wt.f left) l d) := by
  unfold expectTypeInstantiation; kall
kuse expectTypeInstantiation (expectTypeInstantiation_cnt (by assumption) (by omega))

theorem missingDefault_cnt {b : Bool} {Q : Unit → List TokRef → Nat → Prop} (h : Q () l d) : kwp (missingDefault b) l d Q := by
  unfold missingDefault; ksteps; exact h
macro_rules | `(tactic| kspec) => `(tactic| (k_head missingDefault; refine missingDefault_cnt ?_))

theorem packDefault_cnt (hs : RecC s) {a b : Bool} (hl : l.length < N) : kwp (packDefault s a b) l d (Le 0 l d) := by
  unfold packDefault
  ksteps <;> (try injections) <;> (try subst_vars) <;> kfin
kuse packDefault (packDefault_cnt (by assumption) (by omega))

theorem typeDefault_cnt (hs : RecC s) {a b : Bool} (hl : l.length < N) : kwp (typeDefault s a b) l d (Le 0 l d) := by
  unfold typeDefault; kall
kuse typeDefault (typeDefault_cnt (by assumption) (by omega))

theorem genericListParam_cnt (hs : RecC s) {a b e : Bool} (hl : l.length < N) : kwp (genericListParam s c a b e) l d (Le 0 l d) := by
  unfold genericListParam genericParam; kall
kuse genericListParam (genericListParam_cnt (by assumption) (by omega))

theorem genericListLoop_cnt (hs : RecC s) {w : Bool} : ∀ (m : Nat) (l : List TokRef) (d : Nat) (g : Punctuated Node) (a b : Bool), l.length < N →
    kwp (genericListLoop s c w m g a b) l d (Le (sz g) l d)
  | 0, _, _, _, _, _, _ => kwp_diverge
  | m + 1, l, d, g, a, b, hl => by
    have ih := genericListLoop_cnt hs (w := w) m
    unfold genericListLoop
    ksteps
    all_goals first | kfin | exact kcall (ih _ _ _ _ _ (by omega)) (fun _ _ _ _ _ => by kfin)
kuse genericListLoop (genericListLoop_cnt (by assumption) _ _ _ _ _ _ (by omega))

theorem parseGenericTypeList_cnt (hs : RecC s) {w : Bool} (hl : l.length < N) : kwp (parseGenericTypeList s c w) l d (Le 0 l d) := by
  unfold parseGenericTypeList; kall
kuse parseGenericTypeList (parseGenericTypeList_cnt (by assumption) (by omega))

/-! ## Table types -/

theorem kwp_tableAccess {Q : Option TokRef → List TokRef → Nat → Prop} (h2 : Q none l d)
    (h1 : ∀ t rest e, rest.length < l.length → mu l = mu rest + e → Wt.f t ≤ e → (l.length < N → 1 ≤ e) → Q (some t) rest d) :
    kwp tableAccess l d Q := by
  unfold tableAccess
  ksteps
  all_goals first | exact h2 | exact h1 _ _ _ ‹_› ‹_› ‹_› ‹_›
macro_rules | `(tactic| kspec) => `(tactic| (k_head tableAccess; refine kwp_tableAccess ?_ (fun _ _ _ _ _ _ _ => ?_)))

theorem fieldValue_cnt (hs : RecC s) {m : String} (hl : l.length < N) : kwp (fieldValue s m) l d (Lo 0 l d) := by
  unfold fieldValue; kall
kuse fieldValue (fieldValue_cnt (by assumption) (by omega))

theorem stringKeyField_cnt (hs : RecC s) {a : Option TokRef} (hl : l.length < N) : kwp (stringKeyField s a) l d (Lo (sz a) l d) := by
  unfold stringKeyField; kall
kuse stringKeyField (stringKeyField_cnt (by assumption) (by omega))

theorem indexerField_cnt (hs : RecC s) {a : Option TokRef} {b : Bool} (hl : l.length < N) :
    kwp (indexerField s a b) l d (Lo (sz a) l d) := by
  unfold indexerField; kall
kuse indexerField (indexerField_cnt (by assumption) (by omega))

theorem plainField_cnt (hs : RecC s) {a : Option TokRef} {t : TokRef} {fs : Punctuated Node} {b : Bool} (hl : l.length < N) :
    kwp (plainField s a t fs b) l d fun v l' d' =>
      (∀ n b, v = .field n b → mu l' + d' + sz n ≤ mu l + d + sz a) ∧ (∀ e, v = .stop e → mu l' + d' + sz e ≤ mu l + d + sz a + sz fs + Bad.bad e) := by
  unfold plainField
  ksteps
  all_goals first
    | (refine ⟨fun n b h => ?_, fun e h => ?_⟩ <;> cases h; done)
    | (refine ⟨fun n b h => (by cases h; done), fun e h => ?_⟩; cases h; kfin)
    | (refine ⟨fun n b h => ?_, fun e h => (by cases h; done)⟩; cases h; kfin)

theorem tableField_cnt (hs : RecC s) {fs : Punctuated Node} {b : Bool} (hl : l.length < N) :
    kwp (tableField s fs b) l d fun v l' d' =>
      (∀ n b, v = .field n b → mu l' + d' + sz n ≤ mu l + d) ∧ (∀ e, v = .stop e → mu l' + d' + sz e ≤ mu l + d + sz fs + Bad.bad e) := by
  unfold tableField
  ksteps
  all_goals first
    | exact absurd ‹(none : Option TokRef).isSome = true› (by simp)
    | (refine kcall (plainField_cnt hs (by omega)) fun v l' d' _ h => ?_
       refine ⟨fun n b hv => ?_, fun e hv => ?_⟩
       · have := h.1 n b hv; kfin
       · have := h.2 e hv; kfin)
    | (refine ⟨fun n b h => (by cases h; done), fun e h => ?_⟩; cases h; kfin)
    | (refine ⟨fun n b h => ?_, fun e h => (by cases h; done)⟩; cases h; kfin)

theorem typeTableLoop_cnt (hs : RecC s) : ∀ (m : Nat) (l : List TokRef) (d : Nat) (g : Punctuated Node) (b : Bool), l.length < N →
    kwp (typeTableLoop s m g b) l d (Lo (sz g) l d)
  | 0, _, _, _, _, _ => kwp_diverge
  | m + 1, l, d, g, b, hl => by
    have ih := typeTableLoop_cnt hs m
    unfold typeTableLoop
    refine kwp_bind (kcall (tableField_cnt hs (by omega)) fun v l' d' hl' h => ?_)
    cases v with
    | stop e =>
      have := h.2 e rfl
      clear h
      kall
    | field n b =>
      have := h.1 n b rfl
      clear h
      ksteps
      all_goals first | kfin | exact kcall (ih _ _ _ _ (by omega)) (fun _ _ _ _ _ => by kfin)
kuse typeTableLoop (typeTableLoop_cnt (by assumption) _ _ _ _ _ (by omega))

theorem expectTypeTable_cnt (hs : RecC s) {left : TokRef} {k : Nat} (hf : Wt.f left ≤ k) (hk : 1 ≤ k) (hl : l.length < N) :
    kwp (expectTypeTable s c left) l d (Le k l d) := by
  unfold expectTypeTable; kall
kuse expectTypeTable (expectTypeTable_cnt (by assumption) (by assumption) (by omega) (by omega))

/-! ## Function types -/

theorem argumentName_cnt {t : TokRef} : kwp (argumentName t) l d (Le 0 l d) := by
  unfold argumentName; kall

theorem typeArgsLoop_cnt (hs : RecC s) : ∀ (m : Nat) (l : List TokRef) (d : Nat) (g : Punctuated Arg), l.length < N →
    kwp (typeArgsLoop s m g) l d (Lo (sz g) l d)
  | 0, _, _, _, _ => kwp_diverge
  | m + 1, l, d, g, hl => by
    have ih := typeArgsLoop_cnt hs m
    unfold typeArgsLoop
    ksteps
    all_goals first
      | kfin
      | (refine kcall argumentName_cnt fun v l' d' hl' h => ?_
         ksteps
         all_goals first | kfin | exact kcall (ih _ _ _ (by omega)) (fun _ _ _ _ _ => by kfin))
kuse typeArgsLoop (typeArgsLoop_cnt (by assumption) _ _ _ _ (by omega))

theorem functionTypeRest_cnt (hs : RecC s) {st : Style} {b : Bool} {g : Option Node} {o e : TokRef} {as : Punctuated Arg} (hl : l.length < N) :
    kwp (functionTypeRest s st b g o e as) l d (Le (sz g + Wt.f o + Wt.f e + sz as) l d) := by
  have h1 : sz (Punctuated.mk (as.pairs.map (Pair.map Arg.type))) ≤ sz as := sz_map_le (sz_pairMap sz_argType)
  have h2 : sz (Punctuated.mk (as.pairs.map (Pair.map Arg.node))) ≤ sz as :=
    sz_map_le (sz_pairMap fun a => Nat.le_of_eq (sz_argNode a))
  unfold functionTypeRest
  kall
kuse functionTypeRest (functionTypeRest_cnt (by assumption) (by omega))

theorem functionTypeParens_cnt (hs : RecC s) {st : Style} {b : Bool} {g : Option Node} (hl : l.length < N) :
    kwp (functionTypeParens s st b g) l d (Le (sz g) l d) := by
  unfold functionTypeParens; kall
kuse functionTypeParens (functionTypeParens_cnt (by assumption) (by omega))

theorem expectFunctionType_cnt (hs : RecC s) {st : Style} (hl : l.length < N) :
    kwp (expectFunctionType s c st) l d (Le 0 l d) := by
  unfold expectFunctionType; kall
kuse expectFunctionType (expectFunctionType_cnt (by assumption) (by omega))

/-! ## Simple types -/

theorem typeofType_cnt (hs : RecC s) {name : TokRef} (hl : l.length < N) : kwp (typeofType s c name) l d (Le (Wt.f name) l d) := by
  unfold typeofType; kall
kuse typeofType (typeofType_cnt (by assumption) (by omega))

theorem moduleType_cnt (hs : RecC s) {name p : TokRef} (hl : l.length < N) :
    kwp (moduleType s name p) l d (Le (Wt.f name + Wt.f p) l d) := by
  unfold moduleType; kall
kuse moduleType (moduleType_cnt (by assumption) (by omega))

theorem nameType_cnt (hs : RecC s) (hl : l.length < N) : kwp (nameType s c) l d (Le 0 l d) := by
  unfold nameType; kall
kuse nameType (nameType_cnt (by assumption) (by omega))

theorem parseSimpleType_cnt (hs : RecC s) {st : Style} (hl : l.length < N) : kwp (parseSimpleType s c st) l d (Le 0 l d) := by
  unfold parseSimpleType; kall
kuse parseSimpleType (parseSimpleType_cnt (by assumption) (by omega))

/-! ## Unions and intersections -/

theorem suffixResult_cnt {x : Suffix} : kwp (suffixResult x) l d (Lo (sz x) l d) := by
  unfold suffixResult; kall
kuse suffixResult suffixResult_cnt

theorem suffixLoop_cnt (hs : RecC s) : ∀ (m : Nat) (l : List TokRef) (d : Nat) (x : Suffix) (t : Option Node), l.length < N →
    kwp (suffixLoop s c m x t) l d (Lo (sz x + sz t) l d)
  | 0, _, _, _, _, _ => kwp_diverge
  | m + 1, l, d, x, t, hl => by
    have ih := suffixLoop_cnt hs m
    unfold suffixLoop
    ksteps
    all_goals first | kfin | exact kcall (ih _ _ _ _ (by omega)) (fun _ _ _ _ _ => by kfin)
kuse suffixLoop (suffixLoop_cnt (by assumption) _ _ _ _ _ (by omega))

theorem parseTypeSuffix_cnt (hs : RecC s) {t : Option Node} (hl : l.length < N) : kwp (parseTypeSuffix s c t) l d (Lo (sz t) l d) := by
  unfold parseTypeSuffix; kall
kuse parseTypeSuffix (parseTypeSuffix_cnt (by assumption) (by omega))

theorem parseType_cnt (hs : RecC s) (hl : l.length < N) : kwp (parseType s c) l d (Lo 0 l d) := by
  unfold parseType; kall

theorem parseTypeOrPack_cnt (hs : RecC s) (hl : l.length < N) : kwp (parseTypeOrPack s c) l d (Lo 0 l d) := by
  unfold parseTypeOrPack; kall

/-! ## Attributes and names -/

theorem attributesLoop_cnt : ∀ (m : Nat) (l : List TokRef) (d : Nat) (as : List Node),
    kwp (attributesLoop m as) l d (Le (sz as) l d)
  | 0, _, _, _ => kwp_diverge
  | m + 1, l, d, as => by
    have ih := attributesLoop_cnt m
    unfold attributesLoop
    ksteps
    all_goals first | kfin | exact kcall (ih _ _ _) (fun _ _ _ _ _ => by kfin)
kuse attributesLoop (attributesLoop_cnt _ _ _ _)

theorem parseAttributes_cnt : kwp parseAttributes l d (Le 0 l d) := by unfold parseAttributes; kall
kuse parseAttributes parseAttributes_cnt

theorem expectTypeSpecifier_cnt (hs : RecC s) {p : TokRef} (hl : l.length < N) :
    kwp (expectTypeSpecifier s p) l d (Le (Wt.f p) l d) := by
  unfold expectTypeSpecifier; kall
kuse expectTypeSpecifier (expectTypeSpecifier_cnt (by assumption) (by omega))

theorem forceNameWithTypes_cnt (hs : RecC s) {t : TokRef} (hl : l.length < N) :
    kwp (forceNameWithTypes s c t) l d (Le (Wt.f t) l d) := by
  unfold forceNameWithTypes; kall
kuse forceNameWithTypes (forceNameWithTypes_cnt (by assumption) (by omega))

theorem forceNameWithAttributes_cnt (hs : RecC s) {t : TokRef} (hl : l.length < N) :
    kwp (forceNameWithAttributes s c t) l d (Le (Wt.f t) l d) := by
  unfold forceNameWithAttributes; kall
kuse forceNameWithAttributes (forceNameWithAttributes_cnt (by assumption) (by omega))

theorem parseNameWithAttributes_cnt (hs : RecC s) (hl : l.length < N) : kwp (parseNameWithAttributes s c) l d (Le 0 l d) := by
  unfold parseNameWithAttributes; kall
kuse parseNameWithAttributes (parseNameWithAttributes_cnt (by assumption) (by omega))

theorem parseNameWithTypes_cnt (hs : RecC s) (hl : l.length < N) : kwp (parseNameWithTypes s c) l d (Le 0 l d) := by
  unfold parseNameWithTypes; kall
kuse parseNameWithTypes (parseNameWithTypes_cnt (by assumption) (by omega))

end FM.Parser.Count
