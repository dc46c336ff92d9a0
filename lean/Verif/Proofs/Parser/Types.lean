import Verif.Proofs.Parser.Nonempty

/-! Helper lemmas: the functions of Model/Parser/Types. -/

namespace FM.Parser
open FM.Spec

variable {c : Cfg} {K : TokRef → Prop} {α β : Type} {self : Rec} {n : Nat}

theorem wp_type (hs : RecOk c K n self) (hl : c.luau = true) {ts : Toks} (hn : ts.length ≤ n) {Q : Res Node → Toks → Prop}
    (h1 : ∀ v ts', ts'.length < ts.length → WellTy c K (.cat .typeInfo) v → v.tokens ≠ [] → Q (.value v) ts')
    (h2 : ∀ ts', ts'.length ≤ ts.length → Q .moved ts')
    (h3 : ∀ ts', ts'.length ≤ ts.length → Q .notFound ts') : wp c K self.type ts Q :=
  wp_res (hs.type hl ts hn) (fun v ts' hl hv => h1 v ts' hl hv.1 hv.2) h2 h3

theorem wp_typeOrPack (hs : RecOk c K n self) (hl : c.luau = true) {ts : Toks} (hn : ts.length ≤ n) {Q : Res Node → Toks → Prop}
    (h1 : ∀ v ts', ts'.length < ts.length → WellTy c K (.cat .typeInfo) v → v.tokens ≠ [] → Q (.value v) ts')
    (h2 : ∀ ts', ts'.length ≤ ts.length → Q .moved ts')
    (h3 : ∀ ts', ts'.length ≤ ts.length → Q .notFound ts') : wp c K self.typeOrPack ts Q :=
  wp_res (hs.typeOrPack hl ts hn) (fun v ts' hl hv => h1 v ts' hl hv.1 hv.2) h2 h3

macro_rules | `(tactic| wspec) => `(tactic| (wp_head Rec.type; refine wp_type (by assumption) (by assumption) (by omega) (fun _ _ _ _ _ => ?_) (fun _ _ => ?_) (fun _ _ => ?_)))
macro_rules | `(tactic| wspec) => `(tactic| (wp_head Rec.typeOrPack; refine wp_typeOrPack (by assumption) (by assumption) (by omega) (fun _ _ _ _ _ => ?_) (fun _ _ => ?_) (fun _ _ => ?_)))
macro_rules | `(tactic| wspec) => `(tactic| (wp_head Rec.expr; refine wp_res (RecOk.expr (by assumption) _ (by omega)) (fun _ _ _ _ => ?_) (fun _ _ => ?_) (fun _ _ => ?_)))

theorem typed_of {a : Ty} {v : Node} (h : WellTy c K a v) : Typed K v := ⟨a, h.1⟩

macro_rules | `(tactic| wspec) => `(tactic| (wp_head firstToken; refine wp_firstToken (by assumption) (typed_of (by assumption)) (fun _ _ => ?_)))
macro_rules | `(tactic| wspec) => `(tactic| (wp_head lastToken; refine wp_lastToken (by assumption) (typed_of (by assumption)) (fun _ _ => ?_)))

/-- Shows that a node is well typed. -/
macro "wty" : tactic => `(tactic| first
  | assumption
  | (ty_simp; done)
  | exact ⟨by ty_simp, by simp [*]⟩
  | (simp [*]; done))

/-- Closes the end of a path through a function. -/
macro "wfin" : tactic => `(tactic| first
  | exact ResQ.moved
  | exact ResQ.notFound
  | exact OptQ.none
  | exact ValQ.moved
  | exact ValQ.notFound
  | (refine ResQ.value ?_ (by omega); wty)
  | (refine OptQ.some ?_; wty)
  | (refine ValQ.value ?_; wty))

theorem wp_parseName {ts : Toks} {Q : Res TokRef → Toks → Prop}
    (h1 : ∀ t, Head ts t → K t → t.isIdent = true → ts.tail.length + 1 = ts.length → Q (.value t) ts.tail)
    (h2 : (∀ t, Head ts t → t.isIdent = false) → Q .notFound ts) : wp c K parseName ts Q := by
  unfold parseName
  wsteps
  · exact h1 _ ‹_› ‹_› ‹_› ‹_›
  · rename_i t ht _ hp; exact h2 fun u hu => ht.inj hu ▸ hp
  · rename_i hn; exact h2 fun u hu => absurd hu (hn u)

macro_rules | `(tactic| wspec) => `(tactic| (wp_head parseName; refine wp_parseName (fun _ _ _ _ _ => ?_) (fun _ => ?_)))

theorem wp_genericPack {ts : Toks} {Q : Node → Toks → Prop} {t u : TokRef} (ht : Head ts t) (hi : t.isIdent = true)
    (hu : Head ts.tail u) (he : is .ellipsis u = true)
    (h : ∀ v ts', ts'.length < ts.length → WellTy c K (.cat .typeInfo) v → v.tokens ≠ [] → Q v ts') : wp c K genericPack ts Q := by
  unfold genericPack
  wsteps
  · refine h _ _ (by omega) ?_ ?_ <;> wty
  · rename_i hn; have := hn u hu; simp_all
  · rename_i hn; have := hn t ht; simp_all

macro_rules | `(tactic| wspec) => `(tactic| (wp_head genericPack; refine wp_genericPack (by assumption) (by assumption) (by assumption) (by assumption) (fun _ _ _ _ _ => ?_)))

theorem parseTypePack_spec (hs : RecOk c K n self) (hl : c.luau = true) {ts : Toks} (hn : ts.length ≤ n + 1) :
    wp c K (parseTypePack self) ts (ResQ (TyOk c K) ts) := by
  unfold parseTypePack
  wsteps
  all_goals wfin

theorem wp_typePack (hs : RecOk c K n self) (hl : c.luau = true) {ts : Toks} (hn : ts.length ≤ n + 1)
    {Q : Res Node → Toks → Prop}
    (h1 : ∀ v ts', ts'.length < ts.length → WellTy c K (.cat .typeInfo) v → v.tokens ≠ [] → Q (.value v) ts')
    (h2 : ∀ ts', ts'.length ≤ ts.length → Q .moved ts')
    (h3 : ∀ ts', ts'.length ≤ ts.length → Q .notFound ts') : wp c K (parseTypePack self) ts Q :=
  wp_res (parseTypePack_spec hs hl hn) (fun v ts' hl hv => h1 v ts' hl hv.1 hv.2) h2 h3

macro_rules | `(tactic| wspec) => `(tactic| (wp_head parseTypePack; refine wp_typePack (by assumption) (by assumption) (by omega) (fun _ _ _ _ _ => ?_) (fun _ _ => ?_) (fun _ _ => ?_)))

theorem parseReturnType_spec (hs : RecOk c K n self) (hl : c.luau = true) {ts : Toks} (hn : ts.length ≤ n) :
    wp c K (parseReturnType self) ts (ResQ (TyOk c K) ts) := by
  unfold parseReturnType
  wsteps
  all_goals wfin

theorem wp_returnType (hs : RecOk c K n self) (hl : c.luau = true) {ts : Toks} (hn : ts.length ≤ n)
    {Q : Res Node → Toks → Prop}
    (h1 : ∀ v ts', ts'.length < ts.length → WellTy c K (.cat .typeInfo) v → v.tokens ≠ [] → Q (.value v) ts')
    (h2 : ∀ ts', ts'.length ≤ ts.length → Q .moved ts')
    (h3 : ∀ ts', ts'.length ≤ ts.length → Q .notFound ts') : wp c K (parseReturnType self) ts Q :=
  wp_res (parseReturnType_spec hs hl hn) (fun v ts' hl hv => h1 v ts' hl hv.1 hv.2) h2 h3

macro_rules | `(tactic| wspec) => `(tactic| (wp_head parseReturnType; refine wp_returnType (by assumption) (by assumption) (by omega) (fun _ _ _ _ _ => ?_) (fun _ _ => ?_) (fun _ _ => ?_)))

theorem genericParamsLoop_spec (hs : RecOk c K n self) (hl : c.luau = true) : ∀ (m : Nat) (ts : Toks) (g : Punctuated Node),
    ts.length < m → ts.length ≤ n → PAll K [.comma] (WellTy c K (.cat .typeInfo)) g →
    wp c K (genericParamsLoop self m g) ts (OptQ (PAll K [.comma] (WellTy c K (.cat .typeInfo))))
  | 0, _, _, hm, _, _ => by omega
  | m + 1, ts, g, hm, hn, hg => by
    have ih := genericParamsLoop_spec hs hl m
    unfold genericParamsLoop
    wsteps
    all_goals first
      | wfin
      | exact OptQ.some (hg.push_punct ‹_› ‹_› (by sep))
      | exact OptQ.some (hg.push_end ‹_›)
      | exact ih _ _ (by omega) (by omega) (hg.push_punct ‹_› ‹_› (by sep))

theorem expectGenericTypeParams_spec (hs : RecOk c K n self) (hl : c.luau = true) {left : TokRef} (hk : K left) (hi : is .lessThan left = true) {ts : Toks}
    (hn : ts.length ≤ n) :
    wp c K (expectGenericTypeParams self left) ts
      (OptQ fun p => In c K .span (.span .lessThan .greaterThan) p.1 ∧ In c K (.punct (.cat .typeInfo)) .types p.2) := by
  unfold expectGenericTypeParams
  wsteps
  refine wp_opt (genericParamsLoop_spec hs hl _ _ _ (by omega) hn .new) (fun _ _ _ _ => ?_) (fun _ _ => ?_) <;> wsteps
  all_goals wfin

theorem wp_genericTypeParams (hs : RecOk c K n self) (hl : c.luau = true) {left : TokRef} (hk : K left) (hi : is .lessThan left = true) {ts : Toks}
    (hn : ts.length ≤ n) {Q : Option (Node × Node) → Toks → Prop}
    (h1 : ∀ a b ts', ts'.length ≤ ts.length → In c K .span (.span .lessThan .greaterThan) a → In c K (.punct (.cat .typeInfo)) .types b → Q (some (a, b)) ts')
    (h2 : ∀ ts', ts'.length ≤ ts.length → Q none ts') : wp c K (expectGenericTypeParams self left) ts Q :=
  wp_opt (expectGenericTypeParams_spec hs hl hk hi hn) (fun v ts' hl hv => h1 v.1 v.2 ts' hl hv.1 hv.2) h2

macro_rules | `(tactic| wspec) => `(tactic| (wp_head expectGenericTypeParams; refine wp_genericTypeParams (by assumption) (by assumption) (by assumption) (by assumption) (by omega) (fun _ _ _ _ _ _ => ?_) (fun _ _ => ?_)))

theorem expectTypeInstantiation_spec (hs : RecOk c K n self) (hl : c.luau = true) {outer : TokRef} (hk : K outer) (hi : is .lessThan outer = true) {ts : Toks}
    (hn : ts.length ≤ n + 1) :
    wp c K (expectTypeInstantiation self outer) ts (OptQ (WellTy c K (.cat .typeInst))) := by
  unfold expectTypeInstantiation
  wsteps
  all_goals wfin

macro_rules | `(tactic| wspec) => `(tactic| (wp_head expectTypeInstantiation; refine wp_opt (expectTypeInstantiation_spec (by assumption) (by assumption) (by assumption) (by assumption) (by omega)) (fun _ _ _ _ => ?_) (fun _ _ => ?_)))

/-! ## Generic declarations -/

theorem wp_missingDefault (hl : c.luau = true) {b : Bool} {ts : Toks} {Q : Unit → Toks → Prop} (h : Q () ts) :
    wp c K (missingDefault b) ts Q := by
  unfold missingDefault
  wsteps
  all_goals exact h

macro_rules | `(tactic| wspec) => `(tactic| (wp_head missingDefault; refine wp_missingDefault (by assumption) ?_))

/-- A default is well typed. -/
def DefQ (c : Cfg) (K : TokRef → Prop) (d : Default) (_ : Toks) : Prop := ∀ n, d = .present n → In c K (.tup .tok (.cat .typeInfo)) (.pair (.sym .equal) (.cat .typeInfo)) n

theorem DefQ.absent {ts : Toks} : DefQ c K .absent ts := by intro n h; cases h
theorem DefQ.moved {ts : Toks} : DefQ c K .moved ts := by intro n h; cases h
theorem DefQ.present {ts : Toks} {v : Node} (h : In c K (.tup .tok (.cat .typeInfo)) (.pair (.sym .equal) (.cat .typeInfo)) v) : DefQ c K (.present v) ts := by
  intro n h; cases h; assumption

theorem wp_default {p : M Default} {ts : Toks} {Q : Default → Toks → Prop} (h : wp c K p ts (DefQ c K))
    (h1 : ∀ ts', ts'.length ≤ ts.length → Q .absent ts')
    (h2 : ∀ v ts', ts'.length ≤ ts.length → In c K (.tup .tok (.cat .typeInfo)) (.pair (.sym .equal) (.cat .typeInfo)) v → Q (.present v) ts')
    (h3 : ∀ ts', ts'.length ≤ ts.length → Q .moved ts') : wp c K p ts Q := by
  refine wp_mono h fun r ts' hl hr => ?_
  cases r with
  | absent => exact h1 ts' hl
  | present v => exact h2 v ts' hl (hr v rfl)
  | moved => exact h3 ts' hl

theorem packDefault_spec (hs : RecOk c K n self) (hl : c.luau = true) {a b : Bool} {ts : Toks} (hn : ts.length ≤ n + 1) :
    wp c K (packDefault self a b) ts (DefQ c K) := by
  unfold packDefault
  wsteps
  all_goals first
    | exact DefQ.absent
    | exact DefQ.moved
    | (refine DefQ.present ?_; wty)
    | split
      · rename_i h; cases h; wsteps; refine DefQ.present ?_; wty
      · rename_i h; cases h; wsteps; refine DefQ.present ?_; wty
      · rename_i h; exact absurd rfl (h _)

macro_rules | `(tactic| wspec) => `(tactic| (wp_head packDefault; refine wp_default (packDefault_spec (by assumption) (by assumption) (by omega)) (fun _ _ => ?_) (fun _ _ _ _ => ?_) (fun _ _ => ?_)))

theorem typeDefault_spec (hs : RecOk c K n self) (hl : c.luau = true) {a b : Bool} {ts : Toks} (hn : ts.length ≤ n + 1) :
    wp c K (typeDefault self a b) ts (DefQ c K) := by
  unfold typeDefault
  wsteps
  all_goals first
    | exact DefQ.absent
    | exact DefQ.moved
    | (refine DefQ.present ?_; wty)

macro_rules | `(tactic| wspec) => `(tactic| (wp_head typeDefault; refine wp_default (typeDefault_spec (by assumption) (by assumption) (by omega)) (fun _ _ => ?_) (fun _ _ _ _ => ?_) (fun _ _ => ?_)))

/-- A parameter of a generic declaration is well typed. -/
def ParamQ (c : Cfg) (K : TokRef → Prop) (r : ParamRes) (_ : Toks) : Prop :=
  ∀ p a b, r = .param p a b → WellTy c K (.cat .genericDeclParam) p

theorem genericListParam_spec [Phantoms c K] (hs : RecOk c K n self) (hl : c.luau = true) {a b d : Bool} {ts : Toks} (hn : ts.length ≤ n + 1) :
    wp c K (genericListParam self c a b d) ts (ParamQ c K) := by
  have he : K errorToken := Phantoms.phantom (c := c) _ (.inr (.inl rfl))
  have he' : errorToken.isIdent = true := rfl
  unfold genericListParam
  wsteps
  all_goals
    intro p a b h
    cases h
    try (unfold genericParam; wty)

theorem wp_genericListParam [Phantoms c K] (hs : RecOk c K n self) (hl : c.luau = true) {a b d : Bool} {ts : Toks} (hn : ts.length ≤ n + 1)
    {Q : ParamRes → Toks → Prop}
    (h1 : ∀ p a b ts', ts'.length ≤ ts.length → WellTy c K (.cat .genericDeclParam) p → Q (.param p a b) ts')
    (h2 : ∀ ts', ts'.length ≤ ts.length → Q .moved ts')
    (h3 : ∀ ts', ts'.length ≤ ts.length → Q .notFound ts') : wp c K (genericListParam self c a b d) ts Q := by
  refine wp_mono (genericListParam_spec hs hl hn) fun r ts' hl hr => ?_
  cases r with
  | param p a b => exact h1 p a b ts' hl (hr p a b rfl)
  | moved => exact h2 ts' hl
  | notFound => exact h3 ts' hl

macro_rules | `(tactic| wspec) => `(tactic| (wp_head genericListParam; refine wp_genericListParam (by assumption) (by assumption) (by omega) (fun _ _ _ _ _ _ => ?_) (fun _ _ => ?_) (fun _ _ => ?_)))

theorem genericListLoop_spec [Phantoms c K] (hs : RecOk c K n self) (hl : c.luau = true) {w : Bool} :
    ∀ (m : Nat) (ts : Toks) (g : Punctuated Node) (a b : Bool),
    ts.length < m → ts.length ≤ n + 1 → PAll K [.comma] (WellTy c K (.cat .genericDeclParam)) g →
    wp c K (genericListLoop self c w m g a b) ts (ValQ (PAll K [.comma] (WellTy c K (.cat .genericDeclParam))))
  | 0, _, _, _, _, hm, _, _ => by omega
  | m + 1, ts, g, a, b, hm, hn, hg => by
    have ih := genericListLoop_spec hs hl (w := w) m
    unfold genericListLoop
    wsteps
    all_goals first
      | wfin
      | exact ValQ.value (hg.push_end ‹_›)
      | exact ih _ _ _ _ (by omega) (by omega) (hg.push_punct ‹_› ‹_› (by sep))

theorem parseGenericTypeList_spec [Phantoms c K] (hs : RecOk c K n self) {w : Bool} {ts : Toks} (hn : ts.length ≤ n + 1) :
    wp c K (parseGenericTypeList self c w) ts (ResQ (WellTy c K (.cat .genericDecl)) ts) := by
  unfold parseGenericTypeList
  wsteps
  · refine wp_val (genericListLoop_spec hs ‹_› _ _ _ _ _ (by omega) (by omega) .new) (fun _ _ _ _ => ?_) (fun _ _ => ?_) (fun _ _ => ?_) <;> wsteps
    all_goals wfin
  all_goals wfin

macro_rules | `(tactic| wspec) => `(tactic| (wp_head parseGenericTypeList; refine wp_res (parseGenericTypeList_spec (by assumption) (by omega)) (fun _ _ _ _ => ?_) (fun _ _ => ?_) (fun _ _ => ?_)))

/-! ## Table types -/

/-- A known token that is `read` or `write`. -/
local notation "Access " K => (fun t : TokRef => K t ∧ ∃ w ∈ [c!"read", c!"write"], isNamed w t = true)

theorem named_of {x : Text} {t : TokRef} (h : t.isIdent = true) (hd : (t.token.display == x) = true) : isNamed x t = true := by
  obtain ⟨y, hy⟩ := is_name.2 h
  simp only [beq_iff_eq] at hd
  simp only [Token.display, hy] at hd
  subst hd
  simp [isNamed, hy, TokenType.display]

theorem access_of {t : TokRef} (h : (t.isIdent && (t.token.display == c!"read" || t.token.display == c!"write")) = true) :
    ∃ w ∈ [c!"read", c!"write"], isNamed w t = true := by
  rw [Bool.and_eq_true_iff, Bool.or_eq_true_iff] at h
  rcases h.2 with h1 | h1
  · exact ⟨_, .head _, named_of h.1 h1⟩
  · exact ⟨_, .tail _ (.head _), named_of h.1 h1⟩

theorem wp_tableAccess {ts : Toks} {Q : Option TokRef → Toks → Prop}
    (h1 : ∀ t, (K t ∧ ∃ w ∈ [c!"read", c!"write"], isNamed w t = true) → ts.tail.length + 1 = ts.length → Q (some t) ts.tail) (h2 : Q none ts) : wp c K tableAccess ts Q := by
  unfold tableAccess
  wsteps
  all_goals first
    | exact h2
    | exact h1 _ ⟨‹_›, access_of ‹_›⟩ ‹_›

macro_rules | `(tactic| wspec) => `(tactic| (wp_head tableAccess; refine wp_tableAccess (fun _ _ _ => ?_) ?_))

theorem fieldValue_spec (hs : RecOk c K n self) (hl : c.luau = true) {msg : String} {ts : Toks} (hn : ts.length ≤ n) :
    wp c K (fieldValue self msg) ts (OptQ (TyOk c K)) := by
  unfold fieldValue
  wsteps
  all_goals wfin

theorem wp_fieldValue (hs : RecOk c K n self) (hl : c.luau = true) {msg : String} {ts : Toks} (hn : ts.length ≤ n)
    {Q : Option Node → Toks → Prop}
    (h1 : ∀ v ts', ts'.length ≤ ts.length → WellTy c K (.cat .typeInfo) v → v.tokens ≠ [] → Q (some v) ts')
    (h2 : ∀ ts', ts'.length ≤ ts.length → Q none ts') : wp c K (fieldValue self msg) ts Q :=
  wp_opt (fieldValue_spec hs hl hn) (fun v ts' hl hv => h1 v ts' hl hv.1 hv.2) h2

macro_rules | `(tactic| wspec) => `(tactic| (wp_head fieldValue; refine wp_fieldValue (by assumption) (by assumption) (by omega) (fun _ _ _ _ _ => ?_) (fun _ _ => ?_)))

theorem stringKeyField_spec (hs : RecOk c K n self) (hl : c.luau = true) {access : Option TokRef}
    (ha : OptP (Access K) access) {ts : Toks} (hn : ts.length ≤ n + 1) {t u : TokRef} (ht : Head ts t)
    (hb : is .leftBracket t = true) (hu : Head ts.tail u) (hstr : u.isString = true) :
    wp c K (stringKeyField self access) ts (OptQ (WellTy c K (.cat .typeField))) := by
  unfold stringKeyField
  wsteps
  all_goals wfin

theorem indexerField_spec (hs : RecOk c K n self) (hl : c.luau = true) {access : Option TokRef}
    (ha : OptP (Access K) access) {b : Bool} {ts : Toks} (hn : ts.length ≤ n + 1) {t : TokRef} (ht : Head ts t)
    (hb : is .leftBracket t = true) :
    wp c K (indexerField self access b) ts (OptQ (WellTy c K (.cat .typeField))) := by
  unfold indexerField
  wsteps
  all_goals wfin

/-- The end of a table type is well typed. -/
def TableEnd.Ok (c : Cfg) (K : TokRef → Prop) : TableEnd → Prop
  | .err => True
  | .done r f => (K r ∧ is .rightBrace r = true) ∧ PAll K [.comma, .semicolon] (WellTy c K (.cat .typeField)) f
  | .fields f => PAll K [.comma, .semicolon] (WellTy c K (.cat .typeField)) f
  | .array a ty => OptP (Access K) a ∧ WellTy c K (.cat .typeInfo) ty

/-- A field of a table type, or its end, is well typed. -/
def FieldRes.Ok (c : Cfg) (K : TokRef → Prop) : FieldRes → Prop
  | .field f _ => WellTy c K (.cat .typeField) f
  | .stop e => e.Ok c K

theorem plainField_spec (hs : RecOk c K n self) (hl : c.luau = true) {access : Option TokRef}
    (ha : OptP (Access K) access) {b : Bool} {f : Punctuated Node} (hf : PAll K [.comma, .semicolon] (WellTy c K (.cat .typeField)) f)
    {ts : Toks} (hn : ts.length ≤ n) {t : TokRef} (ht : Head ts t) :
    wp c K (plainField self access t f b) ts (fun r _ => r.Ok c K) := by
  unfold plainField
  wsteps
  all_goals first
    | trivial
    | exact hf
    | exact ⟨ha, ‹_›⟩
    | (unfold FieldRes.Ok; wty)

theorem tableField_spec (hs : RecOk c K n self) (hl : c.luau = true) {b : Bool} {f : Punctuated Node}
    (hf : PAll K [.comma, .semicolon] (WellTy c K (.cat .typeField)) f) {ts : Toks} (hn : ts.length ≤ n) :
    wp c K (tableField self f b) ts (fun r _ => r.Ok c K) := by
  unfold tableField
  wsteps
  all_goals first
    | trivial
    | exact ⟨⟨‹_›, ‹_›⟩, hf⟩
    | exact plainField_spec hs hl (by simp only [optP_none, optP_some, and_self, *]) hf (by omega) (by assumption)
    | (refine wp_opt (stringKeyField_spec hs hl (by simp only [optP_none, optP_some, and_self, *]) (by omega) ‹_› ‹_› ‹_› ‹_›) (fun _ _ _ _ => ?_) (fun _ _ => ?_) <;> wsteps <;> first | trivial | assumption)
    | (refine wp_opt (indexerField_spec hs hl (by simp only [optP_none, optP_some, and_self, *]) (by omega) ‹_› ‹_›) (fun _ _ _ _ => ?_) (fun _ _ => ?_) <;> wsteps <;> first | trivial | assumption)

theorem wp_tableField (hs : RecOk c K n self) (hl : c.luau = true) {b : Bool} {f : Punctuated Node}
    (hf : PAll K [.comma, .semicolon] (WellTy c K (.cat .typeField)) f) {ts : Toks} (hn : ts.length ≤ n) {Q : FieldRes → Toks → Prop}
    (h1 : ∀ v b ts', ts'.length ≤ ts.length → WellTy c K (.cat .typeField) v → Q (.field v b) ts')
    (h2 : ∀ e ts', ts'.length ≤ ts.length → e.Ok c K → Q (.stop e) ts') : wp c K (tableField self f b) ts Q := by
  refine wp_mono (tableField_spec hs hl hf hn) fun r ts' hl hr => ?_
  cases r with
  | field v b => exact h1 v b ts' hl hr
  | stop e => exact h2 e ts' hl hr

theorem typeTableLoop_spec (hs : RecOk c K n self) (hl : c.luau = true) : ∀ (m : Nat) (ts : Toks) (f : Punctuated Node) (b : Bool),
    ts.length < m → ts.length ≤ n → PAll K [.comma, .semicolon] (WellTy c K (.cat .typeField)) f →
    wp c K (typeTableLoop self m f b) ts (fun r _ => r.Ok c K)
  | 0, _, _, _, hm, _, _ => by omega
  | m + 1, ts, f, b, hm, hn, hf => by
    have ih := typeTableLoop_spec hs hl m
    unfold typeTableLoop
    wsteps
    refine wp_tableField hs hl hf hn (fun _ _ _ _ _ => ?_) (fun _ _ _ _ => ?_) <;> wsteps
    all_goals first
      | assumption
      | exact hf.push_end ‹_›
      | exact ih _ _ _ (by omega) (by omega) (hf.push_punct ‹_› ‹_› (by sep))

/-- A type that is not a pack. -/
def SimpleOk (c : Cfg) (K : TokRef → Prop) (v : Node) : Prop :=
  TyOk c K v ∧ hasKind .tyVariadicPack v = false ∧ hasKind .tyGenericPack v = false

theorem expectTypeTable_spec [Phantoms c K] (hs : RecOk c K n self) (hl : c.luau = true) {left : TokRef} (hk : K left) (hi : is .leftBrace left = true) {ts : Toks}
    (hn : ts.length ≤ n) : wp c K (expectTypeTable self c left) ts (OptQ (SimpleOk c K)) := by
  unfold expectTypeTable
  wsteps
  refine wp_mono (typeTableLoop_spec hs hl _ _ _ _ (by omega) hn .new) fun r ts' hl' hr => ?_
  cases r <;> wsteps
  · wfin
  · refine OptQ.some ⟨⟨?_, by simp⟩, rfl, rfl⟩
    obtain ⟨h1, h2⟩ := hr
    wty
  all_goals
    have hr' := hr
    refine OptQ.some ⟨⟨?_, by simp⟩, rfl, rfl⟩
    first
      | (replace hr' : PAll K _ _ _ := hr'; wty)
      | (obtain ⟨h1, h2⟩ := hr'; wty)

macro_rules | `(tactic| wspec) => `(tactic| (wp_head expectTypeTable; refine wp_opt (expectTypeTable_spec (by assumption) (by assumption) (by assumption) (by assumption) (by omega)) (fun _ _ _ _ => ?_) (fun _ _ => ?_)))

/-! ## Function types -/

theorem wp_argumentName {t : TokRef} {ts : Toks} (ht : Head ts t) {Q : Option (TokRef × TokRef) → Toks → Prop}
    (h1 : ∀ a b ts', ts'.length ≤ ts.length → K a ∧ a.isIdent = true → K b ∧ is .colon b = true → Q (some (a, b)) ts') (h2 : Q none ts) :
    wp c K (argumentName t) ts Q := by
  unfold argumentName
  wsteps
  all_goals first
    | exact h2
    | exact h1 _ _ _ (by omega) ⟨‹_›, ‹_›⟩ ⟨‹_›, ‹_›⟩

macro_rules | `(tactic| wspec) => `(tactic| (wp_head argumentName; refine wp_argumentName (by assumption) (fun _ _ _ _ _ _ => ?_) ?_))

/-- An argument of a function type is well typed. -/
def Arg.Ok (c : Cfg) (K : TokRef → Prop) (a : Arg) : Prop := OptP (fun p => (K p.1 ∧ p.1.isIdent = true) ∧ K p.2 ∧ is .colon p.2 = true) a.name ∧ WellTy c K (.cat .typeInfo) a.type

theorem typeArgsLoop_spec (hs : RecOk c K n self) (hl : c.luau = true) : ∀ (m : Nat) (ts : Toks) (f : Punctuated Arg),
    ts.length < m → ts.length ≤ n → PAll K [.comma] (Arg.Ok c K) f →
    wp c K (typeArgsLoop self m f) ts (OptQ (PAll K [.comma] (Arg.Ok c K)))
  | 0, _, _, hm, _, _ => by omega
  | m + 1, ts, f, hm, hn, hf => by
    have ih := typeArgsLoop_spec hs hl m
    unfold typeArgsLoop
    wsteps
    all_goals first
      | exact OptQ.none
      | exact OptQ.some hf
      | exact OptQ.some (hf.push_end ⟨by simp [optP_none, optP_some, *], ‹_›⟩)
      | exact OptQ.some (hf.push_punct ⟨by simp [optP_none, optP_some, *], ‹_›⟩ ‹_› (by sep))
      | exact ih _ _ (by omega) (by omega) (hf.push_punct ⟨by simp [optP_none, optP_some, *], ‹_›⟩ ‹_› (by sep))

theorem Arg.Ok.node {a : Arg} (h : a.Ok c K) : WellTy c K (.cat .typeArg) a.node := by
  obtain ⟨h1, h2⟩ := h
  unfold Arg.node
  ty_simp
  intro v hv
  obtain ⟨p, hp, rfl⟩ := Option.map_eq_some_iff.1 hv
  have := h1 p hp
  ty_simp

theorem functionTypeRest_spec (hs : RecOk c K n self) (hl : c.luau = true) {style : Style} {force : Bool} {generics : Option Node}
    (hgen : OptP (WellTy c K (.cat .genericDecl)) generics) {left right : TokRef} (h1 : K left)
    (h1' : is .leftParen left = true) (h2 : K right) (h2' : is .rightParen right = true) {args : Punctuated Arg}
    (ha : PAll K [.comma] (Arg.Ok c K) args) {ts : Toks} (hn : ts.length ≤ n + 1) :
    wp c K (functionTypeRest self style force generics left right args) ts (OptQ (SimpleOk c K)) := by
  have ha1 : PAll K [.comma] (WellTy c K (.cat .typeInfo)) ⟨args.pairs.map (Pair.map Arg.type)⟩ := ha.map fun a h => h.2
  have ha2 : PAll K [.comma] (WellTy c K (.cat .typeArg)) ⟨args.pairs.map (Pair.map Arg.node)⟩ := ha.map fun a h => h.node
  unfold functionTypeRest
  wsteps
  all_goals first
    | exact OptQ.none
    | (refine OptQ.some ⟨⟨?_, by simp⟩, rfl, rfl⟩; ty_simp; done)
    | (exfalso; simp_all; done)

macro_rules | `(tactic| wspec) => `(tactic| (wp_head functionTypeRest; refine wp_opt (functionTypeRest_spec (by assumption) (by assumption) (by assumption) (by assumption) (by assumption) (by assumption) (by assumption) (by assumption) (by omega)) (fun _ _ _ _ => ?_) (fun _ _ => ?_)))

theorem functionTypeParens_spec (hs : RecOk c K n self) (hl : c.luau = true) {style : Style} {force : Bool} {generics : Option Node}
    (hgen : OptP (WellTy c K (.cat .genericDecl)) generics) {ts : Toks} (hn : ts.length ≤ n + 1) :
    wp c K (functionTypeParens self style force generics) ts (fun r ts' => ∀ v, r = some v → SimpleOk c K v ∧ ts'.length < ts.length) := by
  unfold functionTypeParens
  wsteps
  · refine wp_opt (typeArgsLoop_spec hs hl _ _ _ (by omega) (by omega) .new) (fun _ _ _ _ => ?_) (fun _ _ => ?_) <;> wsteps
    all_goals first
      | (simp; done)
      | (intro v hv; cases hv; exact ⟨‹_›, by omega⟩)
  · simp

theorem expectFunctionType_spec [Phantoms c K] (hs : RecOk c K n self) (hl : c.luau = true) {style : Style} {ts : Toks} (hn : ts.length ≤ n + 1) :
    wp c K (expectFunctionType self c style) ts (fun r ts' => ∀ v, r = some v → SimpleOk c K v ∧ ts'.length < ts.length) := by
  unfold expectFunctionType
  wsteps
  all_goals first
    | (simp; done)
    | (refine wp_mono (functionTypeParens_spec hs hl (by simp [optP_none, optP_some, *]) (by omega)) fun r ts' hl hr v hv => ⟨(hr v hv).1, ?_⟩
       have := (hr v hv).2
       omega)

/-! ## Simple types -/

theorem typeofType_spec [Phantoms c K] (hs : RecOk c K n self) (hl : c.luau = true) {name : TokRef} (hk : K name)
    (hi : isNamed c!"typeof" name = true) {ts : Toks} (hn : ts.length ≤ n) :
    wp c K (typeofType self c name) ts (ResQ (SimpleOk c K) ts) := by
  unfold typeofType
  wsteps
  all_goals first
    | wfin
    | (refine ResQ.value ⟨⟨?_, by simp⟩, rfl, rfl⟩ (by omega); ty_simp)

macro_rules | `(tactic| wspec) => `(tactic| (wp_head typeofType; refine wp_res (typeofType_spec (by assumption) (by assumption) (by assumption) (named_of (by assumption) (by assumption)) (by omega)) (fun _ _ _ _ => ?_) (fun _ _ => ?_) (fun _ _ => ?_)))

theorem moduleType_spec (hs : RecOk c K n self) (hl : c.luau = true) {name p : TokRef} (hk : K name) (hi : name.isIdent = true)
    (hp : K p) (hp' : is .dot p = true) {ts : Toks} (hn : ts.length ≤ n) :
    wp c K (moduleType self name p) ts (ResQ (SimpleOk c K) ts) := by
  unfold moduleType
  wsteps
  all_goals first
    | wfin
    | (refine ResQ.value ⟨⟨?_, by simp⟩, rfl, rfl⟩ (by omega); ty_simp)

theorem nameType_spec [Phantoms c K] (hs : RecOk c K n self) (hl : c.luau = true) {ts : Toks} (hn : ts.length ≤ n + 1) {t : TokRef}
    (ht : Head ts t) (hi : t.isIdent = true) :
    wp c K (nameType self c) ts (ResQ (SimpleOk c K) ts) := by
  unfold nameType
  wsteps
  all_goals first
    | wfin
    | (refine ResQ.value ⟨⟨?_, by simp⟩, rfl, rfl⟩ (by omega); ty_simp)
    | (refine wp_res (typeofType_spec hs hl ‹_› (named_of (by assumption) (by assumption)) (by omega)) (fun v ts' h1 h2 => ResQ.value h2 (by omega)) (fun _ _ => ResQ.moved) (fun _ _ => ResQ.notFound))
    | (refine wp_res (moduleType_spec hs hl ‹_› ‹_› ‹_› ‹_› (by omega)) (fun v ts' h1 h2 => ResQ.value h2 (by omega)) (fun _ _ => ResQ.moved) (fun _ _ => ResQ.notFound))

theorem solid_interp {t : TokRef} (h : (t.token.type.kind == .interpolatedString) = true) : t.isEof = false := by
  unfold TokRef.isEof
  cases hk : t.token.type.kind <;> simp_all

theorem parseSimpleType_spec [Phantoms c K] (hs : RecOk c K n self) (hl : c.luau = true) {style : Style} {ts : Toks} (hn : ts.length ≤ n + 1) :
    wp c K (parseSimpleType self c style) ts (ResQ (SimpleOk c K) ts) := by
  unfold parseSimpleType
  wsteps
  all_goals first
    | wfin
    | (refine ResQ.value ⟨⟨?_, by simp⟩, rfl, rfl⟩ (by omega); ty_simp)
    | exact nameType_spec hs hl (by omega) ‹_› ‹_›
    | (refine wp_take ‹_› (solid_interp ‹_›) (fun _ _ => ?_); wsteps; wfin)
    | (refine wp_mono (expectFunctionType_spec hs hl hn) fun r ts' _ hr => ?_
       cases r with
       | none => wsteps; wfin
       | some v => wsteps; exact ResQ.value (hr v rfl).1 (hr v rfl).2)

macro_rules | `(tactic| wspec) => `(tactic| (wp_head parseSimpleType; refine wp_res (parseSimpleType_spec (by assumption) (by assumption) (by omega)) (fun _ _ _ _ => ?_) (fun _ _ => ?_) (fun _ _ => ?_)))

/-! ## Unions and intersections -/

/-- What separates the types. -/
def Suffix.symbol (x : Suffix) : Symbol := if x.isUnion then .pipe else .ampersand

/-- The locals of `parse_type_suffix` are consistent. -/
structure Suffix.Ok (c : Cfg) (K : TokRef → Prop) (x : Suffix) : Prop where
  types : PAll K [x.symbol] (WellTy c K (.cat .typeInfo)) x.types
  leading : OptP (fun t => K t ∧ is x.symbol t = true) x.leading
  one : ¬ (x.isUnion = true ∧ x.isIntersection = true)
  some : (x.types.pairs ≠ [] ∨ x.leading.isSome = true) → x.isUnion = true ∨ x.isIntersection = true

theorem Suffix.Ok.union {x : Suffix} (h : x.Ok c K) (hi : x.isIntersection = false) :
    PAll K [.pipe] (WellTy c K (.cat .typeInfo)) x.types ∧ OptP (fun t => K t ∧ is .pipe t = true) x.leading := by
  have h1 := h.types
  have h2 := h.leading
  unfold Suffix.symbol at h1 h2
  cases hu : x.isUnion
  · have h3 : ¬ (x.types.pairs ≠ [] ∨ x.leading.isSome = true) := fun h3 => by simpa [hu, hi] using h.some h3
    simp only [not_or, ne_eq, Classical.not_not, Bool.not_eq_true, Option.isSome_eq_false_iff, Option.isNone_iff_eq_none] at h3
    refine ⟨fun y hy => ?_, by rw [h3.2]; exact optP_none.2 trivial⟩
    rw [h3.1] at hy
    cases hy
  · simp only [hu, if_true] at h1 h2
    exact ⟨h1, h2⟩

theorem Suffix.Ok.inter {x : Suffix} (h : x.Ok c K) (hu : x.isUnion = false) :
    PAll K [.ampersand] (WellTy c K (.cat .typeInfo)) x.types ∧ OptP (fun t => K t ∧ is .ampersand t = true) x.leading := by
  have h1 := h.types
  have h2 := h.leading
  simp only [Suffix.symbol, hu, Bool.false_eq_true, if_false] at h1 h2
  exact ⟨h1, h2⟩

theorem push_tokens {p : Punctuated Node} {v : Node} (h : v.tokens ≠ []) : (punct (p.push (.end v))).tokens ≠ [] := by
  simp [punct, Punctuated.push, pairNode, h]

theorem suffixResult_spec {x : Suffix} (hx : x.Ok c K) {v : Node} (hv : WellTy c K (.cat .typeInfo) v) (hne : v.tokens ≠ [])
    (ho : x.isUnion = true ∨ x.isIntersection = true) {ts : Toks} :
    wp c K (suffixResult { x with types := x.types.push (.end v) }) ts (ValQ (TyOk c K)) := by
  have h1 := hx.types.push_end hv
  have h2 := hx.leading
  have h3 := hx.one
  have h4 := push_tokens (p := x.types) hne
  unfold suffixResult
  obtain ⟨ty, u, i, l⟩ := x
  dsimp only at *
  cases u <;> cases i <;> simp at ho h3 <;> dsimp only <;> wsteps
  all_goals
    refine ValQ.value ⟨?_, by simp [h4]⟩
    simp only [Suffix.symbol, if_true, if_false, Bool.false_eq_true] at h1 h2
    ty_simp

/-- What is known of the type parsed so far. -/
theorem suffixLoop_spec [Phantoms c K] (hs : RecOk c K n self) (hl : c.luau = true) : ∀ (m : Nat) (ts : Toks) (x : Suffix) (ty : Option Node),
    ts.length < m → ts.length ≤ n + 1 → x.Ok c K → OptP (TyOk c K) ty →
    wp c K (suffixLoop self c m x ty) ts (ValQ (TyOk c K))
  | 0, _, _, _, hm, _, _, _ => by omega
  | m + 1, ts, x, ty, hm, hn, hx, hty => by
    have ih := suffixLoop_spec hs hl m
    have key : ∀ (v : Node) (ts' : Toks), ts'.length ≤ ts.length → TyOk c K v → wp c K (do
      match ← current with
      | none => suffixResult { x with types := x.types.push (.end v) }
      | some t =>
        if is .questionMark t then
          if x.isIntersection then
            tokenError t "cannot mix union and intersection types"
            return .moved
          else
            let q ← take
            suffixLoop self c m { x with isUnion := true } (some (.node .tyOptional [v, .tok q]))
        else if is .pipe t then
          if x.isIntersection then
            tokenError t "cannot mix union and intersection types"
            return .moved
          else
            let p ← take
            suffixLoop self c m { x with types := x.types.push (.new v (some p)), isUnion := true } none
        else if is .ampersand t then
          if x.isUnion then
            tokenError t "cannot mix union and intersection types"
            return .moved
          else
            let p ← take
            suffixLoop self c m { x with types := x.types.push (.new v (some p)), isIntersection := true } none
        else if x.types.isEmpty && x.leading.isNone then return .value v
        else suffixResult { x with types := x.types.push (.end v) }) ts' (ValQ (TyOk c K)) := by
      intro v ts' hl' hv
      have hv1 := hv.1
      wsteps
      · refine ValQ.moved
      · rename_i hint _ _
        have hint : x.isIntersection = false := by simpa using hint
        refine ih _ _ _ (by omega) (by omega) ⟨(hx.union hint).1, (hx.union hint).2, by simp [hint], by simp⟩ ?_
        rw [optP_some]
        exact ⟨by ty_simp, by simp⟩
      · refine ValQ.moved
      · rename_i hint _ _
        have hint : x.isIntersection = false := by simpa using hint
        exact ih _ _ _ (by omega) (by omega) ⟨(hx.union hint).1.push_punct hv1 ‹_› (by sep), (hx.union hint).2, by simp [hint], by simp⟩ (by simp [OptP])
      · refine ValQ.moved
      · rename_i hint _ _
        have hint : x.isUnion = false := by simpa using hint
        refine ih _ _ _ (by omega) (by omega) ⟨?_, ?_, by simp [hint], by simp⟩ (by simp [OptP])
        · simp only [Suffix.symbol, hint, Bool.false_eq_true, if_false]
          exact (hx.inter hint).1.push_punct hv1 ‹_› (by sep)
        · simp only [Suffix.symbol, hint, Bool.false_eq_true, if_false]
          exact (hx.inter hint).2
      · exact ValQ.value hv
      · rename_i h
        refine suffixResult_spec hx hv1 hv.2 (hx.some ?_)
        simp only [Punctuated.isEmpty, Bool.and_eq_true, not_and, Bool.not_eq_true] at h
        by_cases hp : x.types.pairs = []
        · exact .inr (by simpa using h (by simp [Punctuated.len, hp]))
        · exact .inl hp
      · rename_i hn
        by_cases ho : x.isUnion = true ∨ x.isIntersection = true
        · exact suffixResult_spec hx hv1 hv.2 ho
        · refine wp_good fun hg => ?_
          have hp : suffixResult { x with types := x.types.push (.end v) } = panic := by
            unfold suffixResult
            dsimp only
            split <;> simp_all
          rw [hp]
          refine wp_panic ⟨hl, .inl ?_⟩
          have := hg.length
          rcases ts' with _ | ⟨x | es | ⟨x, es⟩, rest⟩
          · simp at this
          · exact absurd rfl (hn x)
          · exact ⟨es, by simp⟩
          · exact absurd rfl (hn x)
    unfold suffixLoop
    cases ty with
    | some v =>
      exact wp_bind (wp_pure (key v ts (Nat.le_refl _) (hty v rfl)))
    | none =>
      refine wp_bind ?_
      dsimp only
      refine wp_bind ?_
      refine wp_res (parseSimpleType_spec hs hl hn) (fun v ts' h1 h2 => ?_) (fun ts' _ => ?_) (fun ts' _ => ?_)
      · exact wp_pure (key v ts' (by omega) h2.1)
      · exact wp_pure (wp_pure ValQ.moved)
      · exact wp_bind (wp_giveUp hl (wp_pure (wp_pure ValQ.moved)))

theorem parseTypeSuffix_some [Phantoms c K] (hs : RecOk c K n self) (hl : c.luau = true) {v : Node} (hv : TyOk c K v) {ts : Toks} (hn : ts.length ≤ n + 1) :
    wp c K (parseTypeSuffix self c (some v)) ts (ValQ (TyOk c K)) := by
  unfold parseTypeSuffix
  wsteps
  exact suffixLoop_spec hs hl _ _ _ _ (by omega) hn ⟨.new, by simp [OptP], by simp, by simp [Punctuated.new]⟩ (by simpa [OptP] using hv)

theorem parseTypeSuffix_none [Phantoms c K] (hs : RecOk c K n self) (hl : c.luau = true) {ts : Toks} (hn : ts.length ≤ n + 1)
    {t : TokRef} (ht : Head ts t) (ho : (is .pipe t || is .ampersand t) = true) :
    wp c K (parseTypeSuffix self c none) ts (ResQ (TyOk c K) ts) := by
  unfold parseTypeSuffix
  wsteps
  · refine wp_val (suffixLoop_spec hs hl _ _ _ _ (by omega) (by omega) ⟨.new, optP_some.2 ⟨‹_›, ‹_›⟩, by simp, by simp⟩ (by simp [OptP]))
      (fun v ts' h1 h2 => ResQ.value h2 (by omega)) (fun _ _ => ResQ.moved) (fun _ _ => ResQ.notFound)
  · refine wp_val (suffixLoop_spec hs hl _ _ _ _ (by omega) (by omega) ⟨.new, optP_some.2 ⟨‹_›, ‹_›⟩, by simp, by simp⟩ (by simp [OptP]))
      (fun v ts' h1 h2 => ResQ.value h2 (by omega)) (fun _ _ => ResQ.moved) (fun _ _ => ResQ.notFound)
  · rename_i u hu _ h1 h2
    rw [ht.inj hu] at ho
    simp [h1, h2] at ho
  · rename_i h
    exact absurd ht (h t)

theorem parseType_spec [Phantoms c K] (hs : RecOk c K n self) (hl : c.luau = true) {ts : Toks} (hn : ts.length ≤ n + 1) :
    wp c K (parseType self c) ts (ResQ (TyOk c K) ts) := by
  unfold parseType
  wsteps
  · exact parseTypeSuffix_none hs hl hn ‹_› ‹_›
  · rename_i hv
    refine wp_val (parseTypeSuffix_some hs hl hv.1 (by omega)) (fun _ _ _ h => ResQ.value h (by omega)) (fun _ _ => ResQ.moved) (fun _ _ => ResQ.notFound)
  all_goals wfin

theorem parseTypeOrPack_spec [Phantoms c K] (hs : RecOk c K n self) (hl : c.luau = true) {ts : Toks} (hn : ts.length ≤ n + 1) :
    wp c K (parseTypeOrPack self c) ts (ResQ (TyOk c K) ts) := by
  unfold parseTypeOrPack
  wsteps
  · rename_i v ts' hlt hv
    split
    · wsteps
      · exact ResQ.value hv.1 hlt
      · exact wp_val (parseTypeSuffix_some hs hl hv.1 (by omega)) (fun _ _ _ h => ResQ.value h (by omega)) (fun _ _ => ResQ.moved) (fun _ _ => ResQ.notFound)
    · exact absurd hv.2.1 (by simp [hasKind])
    · exact absurd hv.2.2 (by simp [hasKind])
    · exact wp_val (parseTypeSuffix_some hs hl hv.1 (by omega)) (fun _ _ _ h => ResQ.value h (by omega)) (fun _ _ => ResQ.moved) (fun _ _ => ResQ.notFound)
  all_goals wfin

/-! ## Attributes and type specifiers -/

theorem attributesLoop_spec (hl : c.luau = true) : ∀ (m : Nat) (ts : Toks) (as : List Node), ts.length < m →
    AllP (WellTy c K (.cat .luauAttr)) as →
    wp c K (attributesLoop m as) ts (ValQ (AllP (WellTy c K (.cat .luauAttr))))
  | 0, _, _, hm, _ => by omega
  | m + 1, ts, as, hm, ha => by
    have ih := attributesLoop_spec hl m
    have hf : c.feat.luau = true := (has_iff.1 hl).1
    unfold attributesLoop
    wsteps
    all_goals first
      | wfin
      | skip
    refine ih _ _ (by omega) ?_
    ty_simp

theorem parseAttributes_len (hl : c.luau = true) {ts : Toks} {t : TokRef} (ht : Head ts t) (hi : is .atSign t = true) :
    wp c K parseAttributes ts (fun r ts' => ValQ (AllP (WellTy c K (.cat .luauAttr))) r ts' ∧ ts'.length < ts.length) := by
  have hf : c.feat.luau = true := (has_iff.1 hl).1
  unfold parseAttributes
  wsteps
  · unfold attributesLoop
    wsteps
    · refine wp_mono (attributesLoop_spec hl _ _ _ (by omega) ?_) (fun _ _ _ h => ⟨h, by omega⟩)
      simp only [List.nil_append]
      ty_simp
    · exact ⟨ValQ.moved, by omega⟩
    · rename_i h; simp [h t ht] at hi
  · rename_i h; simp [h t ht] at hi

theorem parseAttributes_spec (hl : c.luau = true) {ts : Toks} {t : TokRef} (ht : Head ts t) (hi : is .atSign t = true) :
    wp c K parseAttributes ts (ResQ (AllP (WellTy c K (.cat .luauAttr))) ts) :=
  wp_mono (parseAttributes_len hl ht hi) fun _ _ _ h v hv => ⟨h.1 v hv, h.2⟩

theorem expectTypeSpecifier_spec (hs : RecOk c K n self) (hl : c.luau = true) {p : TokRef} (hp : K p) (hi : is .colon p = true)
    {ts : Toks} (hn : ts.length ≤ n) :
    wp c K (expectTypeSpecifier self p) ts (OptQ (WellTy c K (.cat .typeSpec))) := by
  unfold expectTypeSpecifier
  wsteps
  all_goals wfin

macro_rules | `(tactic| wspec) => `(tactic| (wp_head expectTypeSpecifier; refine wp_opt (expectTypeSpecifier_spec (by assumption) (by assumption) (by assumption) (by assumption) (by omega)) (fun _ _ _ _ => ?_) (fun _ _ => ?_)))

/-! ## Names -/

/-- A name with its attribute and type is well typed. -/
def Name.Ok (c : Cfg) (K : TokRef → Prop) (x : Name) : Prop :=
  (K x.name ∧ x.name.isIdent = true) ∧ OptP (WellTy c K (.cat .attribute)) x.attr ∧ OptP (WellTy c K (.cat .typeSpec)) x.typeSpec

theorem forceNameWithTypes_spec (hs : RecOk c K n self) {t : TokRef} (ht : K t) (hi : t.isIdent = true)
    {ts : Toks} (hn : ts.length ≤ n + 1) :
    wp c K (forceNameWithTypes self c t) ts (fun x _ => x.Ok c K) := by
  unfold forceNameWithTypes
  wsteps
  all_goals exact ⟨⟨ht, hi⟩, by simp [optP_none], by simp [optP_none, optP_some, *]⟩

theorem forceNameWithAttributes_spec [Phantoms c K] (hs : RecOk c K n self) {t : TokRef} (ht : K t) (hi : t.isIdent = true)
    {ts : Toks} (hn : ts.length ≤ n + 1) :
    wp c K (forceNameWithAttributes self c t) ts (fun x _ => x.Ok c K) := by
  unfold forceNameWithAttributes
  wsteps
  all_goals first
    | exact forceNameWithTypes_spec hs ht hi hn
    | (refine ⟨⟨ht, hi⟩, ?_, by simp [optP_none]⟩; first | (simp [optP_none]; done) | (rw [optP_some]; ty_simp))

/-- The result of parsing a name: if there is none, the current token is no name. -/
def NameQ (c : Cfg) (K : TokRef → Prop) (ts : Toks) (r : Res Name) (ts' : Toks) : Prop :=
  (∃ x, r = .value x ∧ x.Ok c K ∧ ts'.length < ts.length) ∨
  r = .notFound ∧ ts' = ts ∧ ∀ t, Head ts t → t.isIdent = false

theorem parseNameWithTypes_spec (hs : RecOk c K n self) {ts : Toks} (hn : ts.length ≤ n + 1) :
    wp c K (parseNameWithTypes self c) ts (NameQ c K ts) := by
  unfold parseNameWithTypes
  wsteps
  · refine wp_mono (forceNameWithTypes_spec hs ‹_› ‹_› (by omega)) fun x ts' hl hx => ?_
    exact wp_pure (.inl ⟨x, rfl, hx, by omega⟩)
  · rename_i t ht _ hp; exact .inr ⟨rfl, rfl, fun u hu => ht.inj hu ▸ hp⟩
  · rename_i hn; exact .inr ⟨rfl, rfl, fun u hu => absurd hu (hn u)⟩

theorem parseNameWithAttributes_spec [Phantoms c K] (hs : RecOk c K n self) {ts : Toks} (hn : ts.length ≤ n + 1) :
    wp c K (parseNameWithAttributes self c) ts (NameQ c K ts) := by
  unfold parseNameWithAttributes
  wsteps
  · refine wp_mono (forceNameWithAttributes_spec hs ‹_› ‹_› (by omega)) fun x ts' hl hx => ?_
    exact wp_pure (.inl ⟨x, rfl, hx, by omega⟩)
  · rename_i t ht _ hp; exact .inr ⟨rfl, rfl, fun u hu => ht.inj hu ▸ hp⟩
  · rename_i hn; exact .inr ⟨rfl, rfl, fun u hu => absurd hu (hn u)⟩

end FM.Parser
