import Verif.Proofs.Parser.AlikeFns

/-! Helper lemmas: types do not depend on names, numbers and strings. -/

namespace FM.Parser.Alike
open FM.Spec FM.Parser

variable {c : Cfg} {self : Rec}

theorem sim_parseName :
    Sim (parseName) (parseName) := by
  unfold parseName
  sim

theorem sim_genericPack :
    Sim (genericPack) (genericPack) := by
  unfold genericPack
  sim

theorem sim_parseTypePack (hs : RecSim self) :
    Sim (parseTypePack self) (parseTypePack self) := by
  unfold parseTypePack
  sim

theorem sim_parseReturnType (hs : RecSim self) :
    Sim (parseReturnType self) (parseReturnType self) := by
  unfold parseReturnType
  sim

theorem sim_genericParamsLoop (hs : RecSim self) {n : Nat} {a2 b2 : Punctuated Node} (h2 : strip a2 = strip b2) :
    Sim (genericParamsLoop self n a2) (genericParamsLoop self n b2) := by
  induction n generalizing a2 b2 h2 with
  | zero => exact sim_diverge
  | succ n ih =>
    unfold genericParamsLoop
    sim

theorem sim_expectGenericTypeParams (hs : RecSim self) {a1 b1 : TokRef} (h1 : strip a1 = strip b1) :
    Sim (expectGenericTypeParams self a1) (expectGenericTypeParams self b1) := by
  unfold expectGenericTypeParams
  sim

theorem sim_expectTypeInstantiation (hs : RecSim self) {a1 b1 : TokRef} (h1 : strip a1 = strip b1) :
    Sim (expectTypeInstantiation self a1) (expectTypeInstantiation self b1) := by
  unfold expectTypeInstantiation
  sim

theorem sim_missingDefault {a1 : Bool} :
    Sim (missingDefault a1) (missingDefault a1) := by
  unfold missingDefault
  sim

theorem sim_packDefault (hs : RecSim self) {a1 : Bool} {a2 : Bool} :
    Sim (packDefault self a1 a2) (packDefault self a1 a2) := by
  unfold packDefault
  sim
  rename_i x y hx a b h
  split
  · rename_i cs heq
    cases heq
    obtain ⟨cs', rfl, h'⟩ := node_of_strip h
    dsimp only
    sim
  · rename_i ty hne heq
    cases heq
    split
    · rename_i cs heq
      cases heq
      obtain ⟨cs', rfl, h'⟩ := node_of_strip' h
      exact absurd rfl (hne cs')
    · rename_i heq
      cases heq
      sim
    · rename_i h1 h2
      exact absurd rfl (h2 _)
  · rename_i h1 h2
    exact absurd rfl (h2 _)

theorem sim_typeDefault (hs : RecSim self) {a1 : Bool} {a2 : Bool} :
    Sim (typeDefault self a1 a2) (typeDefault self a1 a2) := by
  unfold typeDefault
  sim

theorem sim_genericListParam (hs : RecSim self) {a1 : Bool} {a2 : Bool} {a3 : Bool} :
    Sim (genericListParam self c a1 a2 a3) (genericListParam self c a1 a2 a3) := by
  unfold genericListParam
  sim

theorem sim_genericListLoop (hs : RecSim self) {a1 : Bool} {n : Nat} {a3 b3 : Punctuated Node} (h3 : strip a3 = strip b3) {a4 : Bool} {a5 : Bool} :
    Sim (genericListLoop self c a1 n a3 a4 a5) (genericListLoop self c a1 n b3 a4 a5) := by
  induction n generalizing a3 b3 h3 a4 a5 with
  | zero => exact sim_diverge
  | succ n ih =>
    unfold genericListLoop
    sim

theorem sim_requireOr {a1 : Symbol} {a2 : String} {a3 : Text} :
    Sim (requireOr c a1 a2 a3) (requireOr c a1 a2 a3) := by
  unfold requireOr
  sim

theorem sim_parseGenericTypeList (hs : RecSim self) {a1 : Bool} :
    Sim (parseGenericTypeList self c a1) (parseGenericTypeList self c a1) := by
  unfold parseGenericTypeList
  sim

theorem sim_tableAccess :
    Sim (tableAccess) (tableAccess) := by
  unfold tableAccess
  sim

theorem sim_fieldValue (hs : RecSim self) {a1 : String} :
    Sim (fieldValue self a1) (fieldValue self a1) := by
  unfold fieldValue
  sim

theorem sim_stringKeyField (hs : RecSim self) {a1 b1 : Option TokRef} (h1 : strip a1 = strip b1) :
    Sim (stringKeyField self a1) (stringKeyField self b1) := by
  unfold stringKeyField
  sim

theorem sim_indexerField (hs : RecSim self) {a1 b1 : Option TokRef} (h1 : strip a1 = strip b1) {a2 : Bool} :
    Sim (indexerField self a1 a2) (indexerField self b1 a2) := by
  unfold indexerField
  sim

theorem sim_plainField (hs : RecSim self) {a1 b1 : Option TokRef} (h1 : strip a1 = strip b1) {a2 b2 : TokRef} (h2 : strip a2 = strip b2) {a3 b3 : Punctuated Node} (h3 : strip a3 = strip b3) {a4 : Bool} :
    Sim (plainField self a1 a2 a3 a4) (plainField self b1 b2 b3 a4) := by
  unfold plainField
  sim

theorem sim_tableField (hs : RecSim self) {a1 b1 : Punctuated Node} (h1 : strip a1 = strip b1) {a2 : Bool} :
    Sim (tableField self a1 a2) (tableField self b1 a2) := by
  unfold tableField
  sim

theorem sim_typeTableLoop (hs : RecSim self) {n : Nat} {a2 b2 : Punctuated Node} (h2 : strip a2 = strip b2) {a3 : Bool} :
    Sim (typeTableLoop self n a2 a3) (typeTableLoop self n b2 a3) := by
  induction n generalizing a2 b2 h2 a3 with
  | zero => exact sim_diverge
  | succ n ih =>
    unfold typeTableLoop
    sim

theorem sim_expectTypeTable (hs : RecSim self) {a1 b1 : TokRef} (h1 : strip a1 = strip b1) :
    Sim (expectTypeTable self c a1) (expectTypeTable self c b1) := by
  unfold expectTypeTable
  sim

theorem sim_argumentName {a1 b1 : TokRef} (h1 : strip a1 = strip b1) :
    Sim (argumentName a1) (argumentName b1) := by
  unfold argumentName
  sim

theorem sim_typeArgsLoop (hs : RecSim self) {n : Nat} {a2 b2 : Punctuated Arg} (h2 : strip a2 = strip b2) :
    Sim (typeArgsLoop self n a2) (typeArgsLoop self n b2) := by
  induction n generalizing a2 b2 h2 with
  | zero => exact sim_diverge
  | succ n ih =>
    unfold typeArgsLoop
    sim

theorem sim_functionTypeRest (hs : RecSim self) {a1 : Style} {a2 : Bool} {a3 b3 : Option Node} (h3 : strip a3 = strip b3) {a4 b4 : TokRef} (h4 : strip a4 = strip b4) {a5 b5 : TokRef} (h5 : strip a5 = strip b5) {a6 b6 : Punctuated Arg} (h6 : strip a6 = strip b6) :
    Sim (functionTypeRest self a1 a2 a3 a4 a5 a6) (functionTypeRest self a1 a2 b3 b4 b5 b6) := by
  unfold functionTypeRest
  sim

theorem sim_functionTypeParens (hs : RecSim self) {a1 : Style} {a2 : Bool} {a3 b3 : Option Node} (h3 : strip a3 = strip b3) :
    Sim (functionTypeParens self a1 a2 a3) (functionTypeParens self a1 a2 b3) := by
  unfold functionTypeParens
  sim

theorem sim_expectFunctionType (hs : RecSim self) {a1 : Style} :
    Sim (expectFunctionType self c a1) (expectFunctionType self c a1) := by
  unfold expectFunctionType
  sim

theorem sim_typeofType (hs : RecSim self) {a1 b1 : TokRef} (h1 : strip a1 = strip b1) :
    Sim (typeofType self c a1) (typeofType self c b1) := by
  unfold typeofType
  sim

theorem sim_moduleType (hs : RecSim self) {a1 b1 : TokRef} (h1 : strip a1 = strip b1) {a2 b2 : TokRef} (h2 : strip a2 = strip b2) :
    Sim (moduleType self a1 a2) (moduleType self b1 b2) := by
  unfold moduleType
  sim

theorem sim_nameType (hs : RecSim self) :
    Sim (nameType self c) (nameType self c) := by
  unfold nameType
  sim

theorem sim_parseSimpleType (hs : RecSim self) {a1 : Style} :
    Sim (parseSimpleType self c a1) (parseSimpleType self c a1) := by
  unfold parseSimpleType
  sim

theorem sim_suffixResult {a1 b1 : Suffix} (h1 : strip a1 = strip b1) :
    Sim (suffixResult a1) (suffixResult b1) := by
  unfold suffixResult
  sim

theorem sim_suffixLoop (hs : RecSim self) {n : Nat} {a2 b2 : Suffix} (h2 : strip a2 = strip b2) {a3 b3 : Option Node} (h3 : strip a3 = strip b3) :
    Sim (suffixLoop self c n a2 a3) (suffixLoop self c n b2 b3) := by
  induction n generalizing a2 b2 h2 a3 b3 h3 with
  | zero => exact sim_diverge
  | succ n ih =>
    unfold suffixLoop
    have h4 : a2.types.isEmpty = b2.types.isEmpty := pisEmpty_of_strip (by simp [h2])
    have h5 : a2.leading.isNone = b2.leading.isNone := isNone_of_strip (by simp [h2])
    sim

theorem sim_parseTypeSuffix (hs : RecSim self) {a1 b1 : Option Node} (h1 : strip a1 = strip b1) :
    Sim (parseTypeSuffix self c a1) (parseTypeSuffix self c b1) := by
  unfold parseTypeSuffix
  sim

theorem sim_parseType (hs : RecSim self) :
    Sim (parseType self c) (parseType self c) := by
  unfold parseType
  sim

theorem sim_parseTypeOrPack (hs : RecSim self) :
    Sim (parseTypeOrPack self c) (parseTypeOrPack self c) := by
  unfold parseTypeOrPack
  sim
  rename_i a b h
  split
  · obtain ⟨cs, rfl, h1⟩ := node_of_strip h
    match cs, h1 with
    | [p, q], h1 =>
      simp only [strip_cons, strip_nil, List.cons.injEq, and_true] at h1
      obtain ⟨ds, rfl, h2⟩ := node_of_strip h1.2
      dsimp only
      have h3 := h1.1
      have h4 := length_of_strip h2
      sim
    | [], h1 => simp at h1
    | [_], h1 => simp at h1
    | _ :: _ :: _ :: _, h1 => simp at h1
  · obtain ⟨cs, rfl, h1⟩ := node_of_strip h
    exact sim_panic
  · obtain ⟨cs, rfl, h1⟩ := node_of_strip h
    exact sim_panic
  · rename_i n1 n2 n3
    split
    · rename_i p ts
      obtain ⟨cs, rfl, h1⟩ := node_of_strip' h
      match cs, h1 with
      | [p, q], h1 =>
        simp only [strip_cons, strip_nil, List.cons.injEq, and_true] at h1
        obtain ⟨ds, rfl, h2⟩ := node_of_strip' h1.2
        exact absurd rfl (n1 _ _)
      | [], h1 => simp at h1
      | [_], h1 => simp at h1
      | _ :: _ :: _ :: _, h1 => simp at h1
    · obtain ⟨cs, rfl, h1⟩ := node_of_strip' h
      exact absurd rfl (n2 _)
    · obtain ⟨cs, rfl, h1⟩ := node_of_strip' h
      exact absurd rfl (n3 _)
    · sim

theorem sim_attributesLoop {n : Nat} {a2 b2 : List Node} (h2 : strip a2 = strip b2) :
    Sim (attributesLoop n a2) (attributesLoop n b2) := by
  induction n generalizing a2 b2 h2 with
  | zero => exact sim_diverge
  | succ n ih =>
    unfold attributesLoop
    sim

theorem sim_parseAttributes :
    Sim (parseAttributes) (parseAttributes) := by
  unfold parseAttributes
  sim

theorem sim_expectTypeSpecifier (hs : RecSim self) {a1 b1 : TokRef} (h1 : strip a1 = strip b1) :
    Sim (expectTypeSpecifier self a1) (expectTypeSpecifier self b1) := by
  unfold expectTypeSpecifier
  sim

theorem sim_forceNameWithTypes (hs : RecSim self) {a1 b1 : TokRef} (h1 : strip a1 = strip b1) :
    Sim (forceNameWithTypes self c a1) (forceNameWithTypes self c b1) := by
  unfold forceNameWithTypes
  sim

theorem sim_forceNameWithAttributes (hs : RecSim self) {a1 b1 : TokRef} (h1 : strip a1 = strip b1) :
    Sim (forceNameWithAttributes self c a1) (forceNameWithAttributes self c b1) := by
  unfold forceNameWithAttributes
  sim

theorem sim_parseNameWithAttributes (hs : RecSim self) :
    Sim (parseNameWithAttributes self c) (parseNameWithAttributes self c) := by
  unfold parseNameWithAttributes
  sim

theorem sim_parseNameWithTypes (hs : RecSim self) :
    Sim (parseNameWithTypes self c) (parseNameWithTypes self c) := by
  unfold parseNameWithTypes
  sim


end FM.Parser.Alike
