import Verif.Proofs.Parser.Clean

/-! Helper lemmas: the functions of Model/Parser/Types, in runs that record nothing. -/

namespace FM.Parser.Clean
open FM.Spec FM.Parser

variable {c : Cfg} {self : Rec} {α : Type}

/-- No binary operator follows. -/
def NoOp (c : Cfg) (l : List TokRef) : Prop := ∀ t, Hd l t → BinOp.precedenceOfToken c.feat t = none

/-- Operators at the right end of `e` keep their operands if `l` follows. -/
def Settled (c : Cfg) (e : Node) (l : List TokRef) : Prop :=
  ∀ t, Hd l t → BinOp.precedenceOfToken c.feat t ≠ none → ∀ x ∈ rightEdge e, keepsLeft t.token.display x

/-- No parenthesis follows. -/
def NoParen (l : List TokRef) : Prop := ∀ t, Hd l t → is .leftParen t = false

/-- No `::` follows. -/
def NoColons (l : List TokRef) : Prop := ∀ t, Hd l t → is .twoColons t = false

/-- No `?`, `|` or `&` follows. -/
def Stops (l : List TokRef) : Prop := ∀ t, Hd l t → is .questionMark t = false ∧ is .pipe t = false ∧ is .ampersand t = false

/-- No `<` follows a type that ends with a name. -/
def Named (n : Node) (l : List TokRef) : Prop := endsName n = true → ∀ t, Hd l t → is .lessThan t = false

/-- What follows a type does not continue it. -/
structure Ended (n : Node) (l : List TokRef) : Prop where
  stops : isOne [.tyGenericPack] n = false → list? n = false → Stops l
  named : Named n l

/-- What follows an expression does not continue the type at its end. -/
def Typed (e : Node) (l : List TokRef) : Prop := ∀ t, lastType e = some t → Stops l ∧ Named t l

/-- What follows an expression does not continue it: no parenthesis if it could be called, no `::`, and nothing that
belongs to its type. -/
structure Calm (c : Cfg) (e : Node) (l : List TokRef) : Prop where
  paren : callable e = true → NoParen l
  colons : c.luau = true → asserts e = true → NoColons l
  typed : c.luau = true → Typed e l

/-- What follows an expression does not continue it, except that it can be `::`. -/
structure Calm0 (c : Cfg) (e : Node) (l : List TokRef) : Prop where
  kind : isOne [.exprBinary, .exprAssertion] e = false
  paren : callable e = true → NoParen l
  colons : c.luau = true → innerAsserts e = true → NoColons l
  typed : c.luau = true → Typed e l

/-- The result of `parse_primary_expression`. -/
def PQ (K : Node → List TokRef → Prop) (c : Cfg) (l : List TokRef) (r : Res Node) (l' : List TokRef) : Prop :=
  RQ (Conf c .expr) l r l' ∧ ∀ v, r = .value v → Settled c v l' ∧ K v l' ∧ leftEdge v = []

/-- The result of `parse_expression`. -/
def EQ (c : Cfg) (l : List TokRef) (r : Res Node) (l' : List TokRef) : Prop :=
  RQ (Conf c .expr) l r l' ∧ ∀ v, r = .value v → NoOp c l' ∧ Calm c v l'

/-- The result of `parse_expression_with_precedence`. -/
def CQ (c : Cfg) (lhs : Node) (p : Nat) (l : List TokRef) (r : Res Node) (l' : List TokRef) : Prop :=
  ∃ v, r = .value v ∧ Conf c .expr v ∧ lhs.flat ++ l = v.flat ++ l' ∧ Settled c v l' ∧ Calm c v l' ∧
    (∀ t n, Hd l' t → BinOp.precedenceOfToken c.feat t = some n → n < p) ∧
    ∀ o ∈ leftEdge v, o ∈ leftEdge lhs ∨ p ≤ row o + 1

/-- The result of parsing a type. -/
def TyQ (c : Cfg) (l : List TokRef) (r : Res Node) (l' : List TokRef) : Prop :=
  ∃ v, r = .value v ∧ Conf c .type v ∧ l = v.flat ++ l' ∧ single v = true ∧ Ended v l'

/-- The result of parsing a type or a list of types. -/
def PkQ (c : Cfg) (l : List TokRef) (r : Res Node) (l' : List TokRef) : Prop :=
  ∃ v, r = .value v ∧ Conf c (.cat .typeInfo) v ∧ l = v.flat ++ l' ∧ led v = false ∧ Ended v l'

/-- The functions available for recursive calls do what they should in runs that record nothing. -/
structure RecC (c : Cfg) (fs : Rec) : Prop where
  block : ∀ l, cwp fs.block l (FQ (fun b => Conf c .block b.node) l)
  expr : ∀ l, cwp fs.expr l (EQ c l)
  primary : ∀ l, cwp fs.primary l (PQ (Calm c) c l)
  climb : ∀ l e p, Conf c .expr e → Settled c e l → Calm c e l → cwp (fs.climb e p) l (CQ c e p l)
  type : c.luau = true → ∀ l, cwp fs.type l (TyQ c l)
  typeOrPack : c.luau = true → ∀ l, cwp fs.typeOrPack l (PkQ c l)

theorem cwp_type (hs : RecC c self) (hl : c.luau = true) {l : List TokRef} {Q : Res Node → List TokRef → Prop}
    (h : ∀ v l', Conf c .type v → Conf c (.cat .typeInfo) v → l = v.flat ++ l' → single v = true → Ended v l' → Q (.value v) l') :
    cwp self.type l Q := by
  refine cwp_mono (hs.type hl l) ?_
  rintro r l' ⟨v, rfl, h1, h2, h3, h4⟩
  exact h v l' h1 (cnf_type_cat h1) h2 h3 h4

theorem cwp_typeOrPack (hs : RecC c self) (hl : c.luau = true) {l : List TokRef} {Q : Res Node → List TokRef → Prop}
    (h : ∀ v l', Conf c (.cat .typeInfo) v → l = v.flat ++ l' → led v = false → Ended v l' → Q (.value v) l') :
    cwp self.typeOrPack l Q := by
  refine cwp_mono (hs.typeOrPack hl l) ?_
  rintro r l' ⟨v, rfl, h1, h2, h3, h4⟩
  exact h v l' h1 h2 h3 h4

theorem cwp_expr (hs : RecC c self) {l : List TokRef} {Q : Res Node → List TokRef → Prop}
    (h1 : ∀ v l', Conf c .expr v → l = v.flat ++ l' → NoOp c l' ∧ Calm c v l' → Q (.value v) l') (h2 : Q .notFound l) : cwp self.expr l Q := by
  refine cwp_mono (hs.expr l) fun r l' hr => ?_
  obtain ⟨hr, hn⟩ := hr
  cases r with
  | value v => exact h1 v l' hr.1 hr.2 (hn v rfl)
  | moved => exact hr.elim
  | notFound => obtain rfl : l' = l := hr; exact h2

macro_rules | `(tactic| cspec) => `(tactic| (cwp_head Rec.type; refine cwp_type (by assumption) (by assumption) (fun _ _ _ _ _ _ _ => ?_)))
macro_rules | `(tactic| cspec) => `(tactic| (cwp_head Rec.typeOrPack; refine cwp_typeOrPack (by assumption) (by assumption) (fun _ _ _ _ _ _ => ?_)))
macro_rules | `(tactic| cspec) => `(tactic| (cwp_head Rec.expr; refine cwp_expr (by assumption) (fun _ _ _ _ _ => ?_) ?_))

theorem parseName_clean (l : List TokRef) : cwp parseName l (RQ (fun t => t.isIdent = true) l) := by
  unfold parseName
  csteps
  all_goals cfin

macro_rules | `(tactic| cspec) => `(tactic| (cwp_head parseName; refine cwp_res (parseName_clean _) (fun _ _ _ _ => ?_) ?_))

theorem genericPack_clean (l : List TokRef) :
    cwp genericPack l (VQ (fun v => Conf c (.cat .typeInfo) v ∧ isOne [.tyGenericPack] v = true) l) := by
  unfold genericPack
  csteps
  refine VQ.mk ⟨?_, rfl⟩ ?_
  · conf
  · flat

theorem cwp_genericPack (_ : RecC c self) {l : List TokRef} {Q : Node → List TokRef → Prop}
    (h : ∀ v l', Conf c (.cat .typeInfo) v → isOne [.tyGenericPack] v = true → l = v.flat ++ l' → Q v l') : cwp genericPack l Q :=
  cwp_val (genericPack_clean l) fun v l' h1 h2 => h v l' h1.1 h1.2 h2

macro_rules | `(tactic| cspec) => `(tactic| (cwp_head genericPack; refine cwp_genericPack (by assumption) (fun _ _ _ _ _ => ?_)))

theorem isOne_iff {ks : List Kind} {n : Node} : isOne ks n = true ↔ ∃ k cs, n = .node k cs ∧ k ∈ ks := by
  cases n with
  | tok t => simp [isOne, kindOf]
  | node k cs => simp [isOne, kindOf, List.contains_iff_mem]

theorem variadic_led {v : Node} (h : variadic v = true) : led v = false := by
  obtain ⟨k, cs, rfl, hk⟩ := isOne_iff.1 h
  simp only [List.mem_cons, List.not_mem_nil, or_false] at hk
  rcases hk with rfl | rfl <;> rfl

theorem Ended.generic {v : Node} (h : isOne [.tyGenericPack] v = true) {l : List TokRef} : Ended v l := by
  refine ⟨fun h' => absurd h (by simp [h']), fun h' => ?_⟩
  obtain ⟨k, cs, rfl, hk⟩ := isOne_iff.1 h
  simp only [List.mem_cons, List.not_mem_nil, or_false] at hk
  subst hk
  simp [endsName] at h'

theorem generic_variadic {v : Node} (h : isOne [.tyGenericPack] v = true) : variadic v = true := by
  obtain ⟨k, cs, rfl, hk⟩ := isOne_iff.1 h
  simp only [List.mem_cons, List.not_mem_nil, or_false] at hk
  subst hk; rfl

theorem list_pack {v : Node} (h : list? v = true) : pack? v = true := by
  unfold list? at h
  split at h
  · rename_i a b
    unfold pack?
    simp only
    split
    · rename_i x hx; simp [hx] at h
    · rfl
  · cases h

theorem list_first {v : Node} (h : list? v = true) : firstType v = v := by
  unfold list? at h
  split at h
  · rename_i a b; simp [firstType]
  · cases h

theorem Ended.stop {v : Node} {l : List TokRef} (h : Ended v l) (hs : single v = true) : Stops l := by
  unfold single at hs
  rw [Bool.and_eq_true_iff] at hs
  refine h.stops ?_ ?_
  · cases hg : isOne [.tyGenericPack] v with
    | false => rfl
    | true => rw [generic_variadic hg] at hs; cases hs.1
  · cases hg : list? v with
    | false => rfl
    | true => rw [list_first hg, list_pack hg] at hs; cases hs.2

theorem Ended.variadic {e : TokRef} {v : Node} {l : List TokRef} (h : Ended v l) (hs : single v = true) : Ended (.node .tyVariadic [.tok e, v]) l := by
  refine ⟨fun _ _ => h.stop hs, fun h' => h.named ?_⟩
  simpa only [endsName] using h'

/-- The result of `parse_type_pack`. -/
def TpQ (c : Cfg) (l : List TokRef) (r : Res Node) (l' : List TokRef) : Prop :=
  match r with
  | .value v => (Conf c (.cat .typeInfo) v ∧ FM.Spec.variadic v = true) ∧ l = v.flat ++ l' ∧ Ended v l'
  | .moved => False
  | .notFound => l' = l

theorem parseTypePack_clean (hs : RecC c self) (hl : c.luau = true) (l : List TokRef) :
    cwp (parseTypePack self) l (TpQ c l) := by
  unfold parseTypePack
  csteps
  · refine ⟨⟨?_, rfl⟩, ?_, .variadic ‹_› ‹_›⟩
    · conf
    · flat
  · exact ⟨⟨‹_›, generic_variadic ‹_›⟩, rfl, .generic ‹_›⟩
  all_goals rfl

theorem cwp_typePack (hs : RecC c self) (hl : c.luau = true) {l : List TokRef} {Q : Res Node → List TokRef → Prop}
    (h1 : ∀ v l', Conf c (.cat .typeInfo) v → FM.Spec.variadic v = true → l = v.flat ++ l' → Ended v l' → Q (.value v) l') (h2 : Q .notFound l) :
    cwp (parseTypePack self) l Q := by
  refine cwp_mono (parseTypePack_clean hs hl l) fun r l' hr => ?_
  cases r with
  | value v => exact h1 v l' hr.1.1 hr.1.2 hr.2.1 hr.2.2
  | moved => exact hr.elim
  | notFound => obtain rfl : l' = l := hr; exact h2

macro_rules | `(tactic| cspec) => `(tactic| (cwp_head parseTypePack; refine cwp_typePack (by assumption) (by assumption) (fun _ _ _ _ _ _ => ?_) ?_))

theorem cwp_returnType (hs : RecC c self) (hl : c.luau = true) {l : List TokRef} {Q : Res Node → List TokRef → Prop}
    (h : ∀ v l', Conf c (.cat .typeInfo) v → l = v.flat ++ l' → led v = false → Ended v l' → Q (.value v) l') :
    cwp (parseReturnType self) l Q := by
  unfold parseReturnType
  csteps
  · exact h _ _ ‹_› rfl (variadic_led ‹_›) ‹_›
  · exact h _ _ ‹_› rfl ‹_› ‹_›

macro_rules | `(tactic| cspec) => `(tactic| (cwp_head parseReturnType; refine cwp_returnType (by assumption) (by assumption) (fun _ _ _ _ _ _ => ?_)))

theorem Sep.of_open {p : Punctuated α} (h : Open p) (hn : p.pairs = []) : Sep .any p := by
  obtain ⟨ps⟩ := p; subst hn; exact Sep.empty (by decide)

/-- The values of a list. -/
def values (p : Punctuated Node) : List Node := p.pairs.map Pair.value

theorem elements_punct' (p : Punctuated Node) : elements (punct p) = values p := by
  obtain ⟨l⟩ := p
  unfold elements values punct
  induction l with
  | nil => rfl
  | cons x l ih => cases x <;> simp_all [Node.children, pairNode, Pair.value]

theorem values_push (p : Punctuated Node) (x : Pair Node) : values (p.push x) = values p ++ [x.value] := by simp [values, Punctuated.push]
@[simp] theorem values_new : values .new = [] := rfl
theorem values_nil {p : Punctuated Node} (h : p.pairs = []) : values p = [] := by simp [values, h]

theorem forall_push {P : Node → Prop} {p : Punctuated Node} {x : Pair Node} (h : ∀ m ∈ values p, P m) (hx : P x.value) :
    ∀ m ∈ values (p.push x), P m := by
  intro m hm
  rw [values_push, List.mem_append, List.mem_singleton] at hm
  rcases hm with hm | rfl
  · exact h m hm
  · exact hx

/-- Elements followed by a separator each, or nothing yet. -/
theorem genericParamsLoop_clean (hs : RecC c self) (hl : c.luau = true) : ∀ (m : Nat) (l : List TokRef) (g : Punctuated Node),
    PEl (Conf c (.cat .typeInfo)) [.comma] g → Open g → (∀ t, Hd l t → is .greaterThan t = true → g.pairs = []) →
    (∀ m ∈ values g, led m = false) →
    cwp (genericParamsLoop self m g) l fun r l' => ∃ p, r = some p ∧ PEl (Conf c (.cat .typeInfo)) [.comma] p ∧ Sep .any p ∧
      yield g ++ l = yield p ++ l' ∧ ∀ m ∈ values p, led m = false
  | 0, _, _, _, _, _, _ => cwp_diverge
  | m + 1, l, g, hg, ho, hn, hled => by
    have ih := genericParamsLoop_clean hs hl m
    unfold genericParamsLoop
    csteps
    · exact ⟨g, rfl, hg, .of_open ho (hn _ ‹_› ‹_›), rfl, hled⟩
    · refine cwp_mono (ih _ _ (hg.push_punct ‹_› (by simpa)) ho.push_punct ?_ (forall_push hled ‹_›)) ?_
      · rename_i hd hng
        intro t ht h; cases hd.inj ht; exact absurd h hng
      · rintro r l' ⟨p, rfl, h1, h2, h3, h4⟩
        exact ⟨p, rfl, h1, h2, by rw [← h3]; simp, h4⟩
    · exact ⟨_, rfl, hg.push_end ‹_›, ho.push_end, by simp, forall_push hled ‹_›⟩

theorem cwp_genericTypeParams (hs : RecC c self) (hl : c.luau = true) {left : TokRef} {l : List TokRef} {Q : Option (Node × Node) → List TokRef → Prop}
    (h : ∀ ps right l', PEl (Conf c (.cat .typeInfo)) [.comma] ps → Sep .any ps → is .greaterThan right = true →
      l = yield ps ++ right :: l' → Unled (punct ps) → Q (some (span left right, punct ps)) l') :
    cwp (expectGenericTypeParams self left) l Q := by
  unfold expectGenericTypeParams
  csteps
  refine cwp_mono (genericParamsLoop_clean hs hl _ l .new .new .new (fun _ _ _ => rfl) (by simp)) ?_
  rintro r l' ⟨p, rfl, h1, h2, h3, h4⟩
  csteps
  exact h p _ _ h1 h2 ‹_› rfl (by unfold Unled; rwa [elements_punct'])

macro_rules | `(tactic| cspec) => `(tactic| (cwp_head expectGenericTypeParams; refine cwp_genericTypeParams (by assumption) (by assumption) (fun _ _ _ _ _ _ _ _ => ?_)))

/-- The result of a function whose caller took the first token. -/
def OQ1 (P : Node → Prop) (t : TokRef) (l : List TokRef) (r : Option Node) (l' : List TokRef) : Prop := OQ P (t :: l) r l'

theorem cwp_typeInstantiation (hs : RecC c self) (hl : c.luau = true) {outer : TokRef} (ho : is .lessThan outer = true) {l : List TokRef}
    {Q : Option Node → List TokRef → Prop}
    (h : ∀ v l', Conf c (.cat .typeInst) v → outer :: l = v.flat ++ l' → Q (some v) l') :
    cwp (expectTypeInstantiation self outer) l Q := by
  unfold expectTypeInstantiation
  csteps
  refine h _ _ ?_ ?_
  · conf
  · flat

/-! ## Generic declarations -/

theorem cwp_missingDefault {b : Bool} {l : List TokRef} {Q : Unit → List TokRef → Prop} (h : b = false → Q () l) :
    cwp (missingDefault b) l Q := by
  unfold missingDefault
  csteps
  exact h (by simpa using ‹¬ b = true›)

macro_rules | `(tactic| cspec) => `(tactic| (cwp_head missingDefault; refine cwp_missingDefault (fun _ => ?_)))

/-- The result of parsing a default, whose type satisfies `K`. -/
def DQ (c : Cfg) (K : Node → Prop) (w b : Bool) (l : List TokRef) (d : Default) (l' : List TokRef) : Prop :=
  match d with
  | .absent => b = false ∧ l' = l
  | .present n => w = true ∧ Conf c (.pair (.sym .equal) (.cat .typeInfo)) n ∧ l = n.flat ++ l' ∧ ∃ e ty, n = .node .tuple [e, ty] ∧ K ty
  | .moved => False

theorem DQ.present {K : Node → Prop} {w b : Bool} (hw : w = true) {l l' : List TokRef} {e ty : Node} (hk : K ty)
    (h : Conf c (.pair (.sym .equal) (.cat .typeInfo)) (.node .tuple [e, ty]))
    (hl : l = (Node.node .tuple [e, ty]).flat ++ l') : DQ c K w b l (.present (.node .tuple [e, ty])) l' := ⟨hw, h, hl, _, _, rfl, hk⟩

theorem cwp_default {K : Node → Prop} {w b : Bool} {p : M Default} {l : List TokRef} {Q : Default → List TokRef → Prop} (h : cwp p l (DQ c K w b l))
    (h1 : b = false → Q .absent l)
    (h2 : ∀ v l', Conf c (.pair (.sym .equal) (.cat .typeInfo)) v → l = v.flat ++ l' → w = true → (∃ e ty, v = .node .tuple [e, ty] ∧ K ty) →
      Q (.present v) l') : cwp p l Q := by
  refine cwp_mono h fun r l' hr => ?_
  cases r with
  | absent => obtain ⟨hb, rfl⟩ := hr; exact h1 hb
  | present v => exact h2 v l' hr.2.1 hr.2.2.1 hr.1 hr.2.2.2
  | moved => exact hr.elim

theorem variadic_default {v : Node} (h : variadic v = true) : isOne [.tyVariadic, .tyGenericPack, .tyTuple] v = true := by
  obtain ⟨k, cs, rfl, hk⟩ := isOne_iff.1 h
  simp only [List.mem_cons, List.not_mem_nil, or_false] at hk
  rcases hk with rfl | rfl <;> rfl

theorem packDefault_clean (hs : RecC c self) (hl : c.luau = true) {a b : Bool} (l : List TokRef) :
    cwp (packDefault self a b) l (DQ c (fun ty => isOne [.tyVariadic, .tyGenericPack, .tyTuple] ty = true) a b l) := by
  unfold packDefault
  csteps
  · refine DQ.present rfl (variadic_default ‹_›) ?_ ?_
    · conf
    · flat
  · split
    · rename_i h; cases h; csteps
      refine DQ.present rfl rfl ?_ ?_
      · conf
      · flat
    · csteps
    · rename_i h; exact absurd rfl (h _)
  all_goals exact (⟨rfl, rfl⟩ : DQ c _ _ _ _ .absent _)

theorem typeDefault_clean (hs : RecC c self) (hl : c.luau = true) {a b : Bool} (l : List TokRef) :
    cwp (typeDefault self a b) l (DQ c (fun ty => single ty = true) a b l) := by
  unfold typeDefault
  csteps
  · refine DQ.present rfl ‹_› ?_ ?_
    · conf
    · flat
  all_goals exact (⟨rfl, rfl⟩ : DQ c _ _ _ _ .absent _)

macro_rules | `(tactic| cspec) => `(tactic| (cwp_head packDefault; refine cwp_default (packDefault_clean (by assumption) (by assumption) _) (fun _ => ?_) (fun _ _ _ _ _ _ => ?_)))
macro_rules | `(tactic| cspec) => `(tactic| (cwp_head typeDefault; refine cwp_default (typeDefault_clean (by assumption) (by assumption) _) (fun _ => ?_) (fun _ _ _ _ _ _ => ?_)))

/-- The result of parsing a generic parameter, after packs or defaults if `a` and `b` say so. -/
def GQ (c : Cfg) (w a b : Bool) (l : List TokRef) (r : ParamRes) (l' : List TokRef) : Prop :=
  ∃ n a' b', r = .param n a' b' ∧ Conf c (.cat .genericDeclParam) n ∧ l = n.flat ++ l' ∧ packParam n = a' ∧ hasDefault n = b' ∧
    (a = true → a' = true) ∧ (b = true → b' = true) ∧ (w = false → b' = false)

theorem defaultOk_absent {p : Node} : DefaultOk p (optNode none) := trivial
theorem defaultOk_name {t : TokRef} {e ty : Node} (h : single ty = true) :
    DefaultOk (.node .genericName [.tok t]) (optNode (some (.node .tuple [e, ty]))) :=
  ⟨fun _ => h, nofun⟩
theorem defaultOk_variadic {t u : TokRef} {e ty : Node} (h : isOne [.tyVariadic, .tyGenericPack, .tyTuple] ty = true) :
    DefaultOk (.node .genericVariadic [.tok t, .tok u]) (optNode (some (.node .tuple [e, ty]))) :=
  ⟨nofun, fun _ => h⟩

theorem genericListParam_clean (hs : RecC c self) (hl : c.luau = true) {w a b : Bool} (l : List TokRef) :
    cwp (genericListParam self c w a b) l (GQ c w a b l) := by
  unfold genericListParam
  csteps
  · refine ⟨_, _, _, rfl, ?_, ?_, rfl, ?_, by simp, by simp_all, by simp_all⟩
    · unfold genericParam; conf; exact defaultOk_absent
    · unfold genericParam; flat
    · simp_all [genericParam, hasDefault, isOne, kindOf, optNode, Node.none]
  · obtain ⟨e, ty, rfl, h⟩ := ‹∃ e ty, _›
    refine ⟨_, _, _, rfl, ?_, ?_, rfl, rfl, by simp, by simp, by simp_all⟩
    · unfold genericParam; conf; exact defaultOk_variadic h
    · unfold genericParam; flat
  · refine ⟨_, _, _, rfl, ?_, ?_, rfl, ?_, by simp_all, by simp_all, by simp_all⟩
    · unfold genericParam; conf; exact defaultOk_absent
    · unfold genericParam; flat
    · simp_all [genericParam, hasDefault, isOne, kindOf, optNode, Node.none]
  · obtain ⟨e, ty, rfl, h⟩ := ‹∃ e ty, _›
    refine ⟨_, _, _, rfl, ?_, ?_, rfl, rfl, by simp_all, by simp, by simp_all⟩
    · unfold genericParam; conf; exact defaultOk_name h
    · unfold genericParam; flat

/-- The parameters so far: packs and defaults come last, and `a` and `b` say whether there are any. -/
structure DeclC (w a b : Bool) (g : Punctuated Node) : Prop where
  ordered : (values g).Pairwise fun x y => (packParam x = true → packParam y = true) ∧ (hasDefault x = true → hasDefault y = true)
  packs : ∀ x ∈ values g, packParam x = true → a = true
  defaults : ∀ x ∈ values g, hasDefault x = true → b = true
  none : w = false → ∀ x ∈ values g, hasDefault x = false

theorem DeclC.push {w a b : Bool} {g : Punctuated Node} (h : DeclC w a b g) {x : Pair Node} {a' b' : Bool} (h1 : packParam x.value = a')
    (h2 : hasDefault x.value = b') (ha : a = true → a' = true) (hb : b = true → b' = true) (hw : w = false → b' = false) :
    DeclC w a' b' (g.push x) := by
  refine ⟨?_, forall_push (fun m hm hp => ha (h.packs m hm hp)) (fun hp => h1 ▸ hp),
    forall_push (fun m hm hp => hb (h.defaults m hm hp)) (fun hp => h2 ▸ hp), fun h0 => forall_push (h.none h0) (by rw [h2]; exact hw h0)⟩
  rw [values_push, List.pairwise_append]
  refine ⟨h.ordered, by simp, ?_⟩
  intro m hm y hy
  rw [List.mem_singleton] at hy
  subst hy
  rw [h1, h2]
  exact ⟨fun hp => ha (h.packs m hm hp), fun hp => hb (h.defaults m hm hp)⟩

theorem genericListLoop_clean (hs : RecC c self) (hl : c.luau = true) {w : Bool} : ∀ (m : Nat) (l : List TokRef) (g : Punctuated Node) (a b : Bool),
    PEl (Conf c (.cat .genericDeclParam)) [.comma] g → Open g → DeclC w a b g →
    cwp (genericListLoop self c w m g a b) l fun r l' => ∃ p, r = .value p ∧ PEl (Conf c (.cat .genericDeclParam)) [.comma] p ∧
      Sep .nonempty p ∧ yield g ++ l = yield p ++ l' ∧ ∃ a b, DeclC w a b p
  | 0, _, _, _, _, _, _, _ => cwp_diverge
  | m + 1, l, g, a, b, hg, ho, hpc => by
    have ih := genericListLoop_clean hs hl (w := w) m
    unfold genericListLoop
    refine cwp_bind (cwp_mono (genericListParam_clean hs hl l) ?_)
    rintro _ l' ⟨n, a', b', rfl, hn, rfl, rfl, rfl, hp3, hp4, hp5⟩
    csteps
    · refine cwp_mono (ih _ _ _ _ (hg.push_punct hn (by simpa)) ho.push_punct (hpc.push rfl rfl hp3 hp4 hp5)) ?_
      rintro r l' ⟨p, rfl, h1, h2, h3, h4⟩
      exact ⟨p, rfl, h1, h2, by rw [← h3]; simp, h4⟩
    · exact ⟨_, rfl, hg.push_end hn, ho.push_end, by simp, _, _, hpc.push rfl rfl hp3 hp4 hp5⟩

theorem noDefaults_none : NoDefaults (optNode none) := by simp [NoDefaults, optNode, Node.none, genericParams]

theorem cwp_genericTypeList (hs : RecC c self) {w : Bool} {l : List TokRef} {Q : Res Node → List TokRef → Prop}
    (h1 : ∀ v l', Conf c (.cat .genericDecl) v → (w = false → NoDefaults (optNode (some v))) → l = v.flat ++ l' → Q (.value v) l')
    (h2 : Q .notFound l) : cwp (parseGenericTypeList self c w) l Q := by
  unfold parseGenericTypeList
  csteps
  · refine cwp_mono (genericListLoop_clean hs ‹_› (w := w) _ _ .new _ _ .new .new ⟨by simp, by simp, by simp, by simp⟩) ?_
    rintro r l' ⟨p, rfl, h3, h4, h5, a, b, h6⟩
    obtain rfl : _ = yield p ++ l' := h5
    csteps
    have h7 : Ordered (punct p) := by unfold Ordered; rw [elements_punct']; exact h6.ordered
    refine h1 _ _ ?_ ?_ ?_
    · conf
    · intro hw x hx
      have hx : x ∈ elements (punct p) := hx
      rw [elements_punct'] at hx
      exact h6.none hw x hx
    · flat
  all_goals exact h2

macro_rules | `(tactic| cspec) => `(tactic| (cwp_head parseGenericTypeList; refine cwp_genericTypeList (by assumption) (fun _ _ _ _ _ => ?_) ?_))

/-! ## Table types -/

/-- An access modifier. -/
abbrev IsAccess : TokRef → Prop := (Term.word [c!"read", c!"write"]).Is

/-- A word that can be an access modifier. -/
abbrev accessWord (t : TokRef) : Bool := tokenNamed c!"read" t || tokenNamed c!"write" t

/-- No access modifier starts here. -/
def NoAccessHere (l : List TokRef) : Prop := ∀ t, Hd l t → accessWord t = false ∨ ∀ u, Hd l.tail u → is .colon u = true

theorem accessWord_false {t : TokRef} (h : (t.isIdent && (t.token.display == c!"read" || t.token.display == c!"write")) = false) : accessWord t = false := by
  rw [Bool.eq_false_iff] at h ⊢
  intro h'
  apply h
  simp only [accessWord, tokenNamed, Bool.or_eq_true_iff, beq_iff_eq] at h'
  rcases h' with h' | h' <;> simp [TokRef.isIdent, h', TokenType.kind, Token.display, TokenType.display]

theorem cwp_tableAccess {l : List TokRef} {Q : Option TokRef → List TokRef → Prop}
    (h1 : ∀ t rest, l = t :: rest → IsAccess t → Q (some t) rest) (h2 : NoAccessHere l → Q none l) : cwp tableAccess l Q := by
  unfold tableAccess
  csteps
  · rename_i u hu hc
    exact h2 fun t ht => .inr fun u' hu' => by rw [hu'.inj hu]; exact hc
  · rename_i h _ _ _ _ _ _
    refine h1 _ _ rfl ?_
    simp only [Bool.and_eq_true_iff, Bool.or_eq_true_iff, beq_iff_eq] at h
    refine Is_word2.2 ?_
    rcases h.2 with h' | h'
    · exact .inl (ident_display h.1 h')
    · exact .inr (ident_display h.1 h')
  · rename_i t ht h
    exact h2 fun t' ht' => .inl (by rw [ht'.inj ht]; exact accessWord_false h)

theorem cwp_fieldValue (hs : RecC c self) (hl : c.luau = true) {m : String} {l : List TokRef} {Q : Option Node → List TokRef → Prop}
    (h : ∀ v l', Conf c .type v → l = v.flat ++ l' → single v = true → Q (some v) l') : cwp (fieldValue self m) l Q := by
  unfold fieldValue
  csteps
  exact h _ _ ‹_› rfl ‹_›

macro_rules | `(tactic| cspec) => `(tactic| (cwp_head fieldValue; refine cwp_fieldValue (by assumption) (by assumption) (fun _ _ _ _ _ => ?_)))

theorem starts_hd {p : TokRef → Bool} {v : Node} {l : List TokRef} (h : ∀ t, Hd (v.flat ++ l) t → p t = false) : startsTok p v = false := by
  unfold startsTok
  cases hv : v.flat with
  | nil => rfl
  | cons t ts => exact h t (by rw [hv]; rfl)

/-- The rest of a field after its access modifier; `b` says whether it is an indexer. -/
def AQ (c : Cfg) (b : Bool) (a : Option TokRef) (l : List TokRef) (r : Option Node) (l' : List TokRef) : Prop :=
  ∃ n, r = some n ∧ Conf c (.cat .typeField) n ∧ yield a ++ l = n.flat ++ l' ∧ (b = false → indexer n = false)

theorem stringKeyField_clean (hs : RecC c self) (hl : c.luau = true) {a : Option TokRef} (ha : OptP IsAccess a) {t u : TokRef} (l : List TokRef)
    (ht : Hd l t) (hb : is .leftBracket t = true) (hu : Hd l.tail u) (hi : u.isString = true) :
    cwp (stringKeyField self a) l (AQ c false a l) := by
  unfold stringKeyField
  csteps
  refine ⟨_, rfl, ?_, ?_, fun _ => rfl⟩
  · conf
    exact ⟨rfl, fun _ => rfl⟩
  · flat

theorem indexerField_clean (hs : RecC c self) (hl : c.luau = true) {a : Option TokRef} (ha : OptP IsAccess a) {b : Bool} {t u : TokRef} (l : List TokRef)
    (ht : Hd l t) (hb : is .leftBracket t = true) (hu : Hd l.tail u) (hi : u.isString = false) :
    cwp (indexerField self a b) l fun r l' => b = false ∧ AQ c true a l r l' := by
  unfold indexerField
  csteps
  rename_i v l1 _ _ _ _ _ _ _ _ _ _ _
  refine ⟨by simpa using ‹¬ b = true›, _, rfl, ?_, ?_, nofun⟩
  · have hk : ∀ v l, Hd (v.flat ++ l) u → KeyOk v := fun v l h h' => by
      rw [starts_hd (l := l)] at h'
      · cases h'
      · intro x hx; rw [hx.inj h]; simpa [TokRef.isString] using hi
    have := hk _ _ ‹Hd (_ ++ _) u›
    conf
  · flat

/-- The result of parsing a field, whose access modifier was `a`; `b` says whether there was an indexer. -/
def TQ (c : Cfg) (fields : Punctuated Node) (b : Bool) (a : Option TokRef) (l : List TokRef) (r : FieldRes) (l' : List TokRef) : Prop :=
  match r with
  | .field n b' => Conf c (.cat .typeField) n ∧ yield a ++ l = n.flat ++ l' ∧ (indexer n = true → b = false ∧ b' = true) ∧ (b = true → b' = true)
  | .stop .err => False
  | .stop (.done right fs) => fs = fields ∧ is .rightBrace right = true ∧ yield a ++ l = right :: l'
  | .stop (.fields _) => ∀ t, Hd l' t → is .rightBrace t = false
  | .stop (.array a' ty) => fields.pairs = [] ∧ OptP IsAccess a' ∧ Conf c .type ty ∧ yield a ++ l = yield a' ++ ty.flat ++ l' ∧
      single ty = true ∧ NoAccess (optTok a') ty

theorem plainField_clean (hs : RecC c self) (hl : c.luau = true) {a : Option TokRef} (ha : OptP IsAccess a) {t : TokRef} {fields : Punctuated Node}
    {b : Bool} (l : List TokRef) (ht : Hd l t) (hb : is .rightBrace t = false) (hacc : a = none → NoAccessHere l) :
    cwp (plainField self a t fields b) l (TQ c fields b a l) := by
  have arr : ∀ v l', (fields.isEmpty && !b) = true → Conf c .type v → l = v.flat ++ l' → single v = true →
      (t.isIdent = true → ∃ u, Hd l.tail u ∧ is .colon u = false) → TQ c fields b a l (.stop (.array a v)) l' := by
    intro v l' h hv hl' hsv hc
    refine ⟨?_, ha, hv, by rw [hl']; simp, hsv, ?_⟩
    · simpa [Punctuated.isEmpty, Punctuated.len] using (Bool.and_eq_true_iff.1 h).1
    · cases a with
      | some x => simp [NoAccess, optTok, Node.some, isOne, kindOf]
      | none =>
        intro _
        refine starts_hd (l := l') fun x hx => ?_
        rw [← hl'] at hx
        cases hx.inj ht
        rcases hacc rfl _ ht with h0 | h0
        · exact h0
        · cases hi : t.isIdent with
          | true =>
            obtain ⟨u, hu, hcu⟩ := hc hi
            rw [h0 u hu] at hcu; cases hcu
          | false => exact accessWord_false (by simp [hi])
  have fld : ∀ t' colon v l', t'.isIdent = true → is .colon colon = true → Conf c .type v → single v = true →
      TQ c fields b a (t' :: colon :: (v.flat ++ l')) (.field (.node .typeField [optTok a, .node .keyName [.tok t'], .tok colon, v]) b) l' := by
    intro t' colon v l' h1 h2 h3 h4
    refine ⟨?_, ?_, nofun, id⟩
    · conf
    · flat
  have stop : TQ c fields b a l (.stop (.fields fields)) l := by
    intro u hu; rw [hu.inj ht]; exact hb
  unfold plainField
  csteps
  all_goals first
    | exact arr _ _ ‹_› ‹_› rfl ‹_› (fun _ => ⟨_, ‹_›, ‹_›⟩)
    | exact arr _ _ ‹_› ‹_› rfl ‹_› (fun h => absurd h ‹_›)
    | exact absurd ‹(!true) = true› (by decide)
    | exact fld _ _ _ _ ‹_› ‹_› ‹_› ‹_›
    | exact stop

theorem tableField_clean (hs : RecC c self) (hl : c.luau = true) {fields : Punctuated Node} {b : Bool} (l : List TokRef) :
    cwp (tableField self fields b) l (TQ c fields b none l) := by
  have key : ∀ (a : Option TokRef) (l : List TokRef) (p : M FieldRes), cwp p l (TQ c fields b a l) →
      cwp p l (TQ c fields b none (yield a ++ l)) := by
    intro a l p h
    refine cwp_mono h fun r l' hr => ?_
    cases r with
    | field n b => exact hr
    | stop e => cases e <;> exact hr
  have done1 : ∀ (a : Option TokRef) (l l' : List TokRef) (n : Node), Conf c (.cat .typeField) n → yield a ++ l = n.flat ++ l' → (false = false → indexer n = false) →
      TQ c fields b a l (.field n b) l' := fun a l l' n h1 h2 h3 => ⟨h1, h2, fun h => absurd h (by simp [h3 rfl]), id⟩
  have done2 : ∀ (a : Option TokRef) (l l' : List TokRef) (n : Node), b = false → Conf c (.cat .typeField) n → yield a ++ l = n.flat ++ l' →
      TQ c fields b a l (.field n true) l' := fun a l l' n h1 h2 h3 => ⟨h2, h3, fun _ => ⟨h1, rfl⟩, fun _ => rfl⟩
  unfold tableField
  refine cwp_bind (cwp_tableAccess (fun u rest hl' hu => ?_) fun hacc => ?_)
  · subst hl'
    refine key (some u) _ _ ?_
    csteps
    · refine cwp_mono (stringKeyField_clean hs hl (a := some u) (optP_some.2 hu) _ ‹_› ‹_› ‹_› ‹_›) ?_
      rintro r l' ⟨n, rfl, h1, h2, h3⟩
      exact cwp_pure (done1 _ _ _ _ h1 h2 h3)
    · refine cwp_mono (indexerField_clean hs hl (a := some u) (optP_some.2 hu) _ ‹_› ‹_› ‹_› ‹_›) ?_
      rintro r l' ⟨h0, n, rfl, h1, h2, -⟩
      exact cwp_pure (done2 _ _ _ _ h0 h1 h2)
    · exact plainField_clean hs hl (a := some u) (optP_some.2 hu) _ ‹_› (by simp_all) nofun
  · csteps
    · exact ⟨rfl, ‹_›, rfl⟩
    · refine cwp_mono (stringKeyField_clean hs hl (a := none) (optP_none.2 trivial) _ ‹_› ‹_› ‹_› ‹_›) ?_
      rintro r l' ⟨n, rfl, h1, h2, h3⟩
      exact cwp_pure (done1 _ _ _ _ h1 h2 h3)
    · refine cwp_mono (indexerField_clean hs hl (a := none) (optP_none.2 trivial) _ ‹_› ‹_› ‹_› ‹_›) ?_
      rintro r l' ⟨h0, n, rfl, h1, h2, -⟩
      exact cwp_pure (done2 _ _ _ _ h0 h1 h2)
    · exact plainField_clean hs hl (a := none) (optP_none.2 trivial) _ ‹_› (by simp_all) fun _ => hacc

/-- The indexers of a list of fields are at most the one that `b` tells of. -/
def Indexers (b : Bool) (fields : Punctuated Node) : Prop := ((values fields).filter indexer).length ≤ b.toNat

theorem Indexers.push {b b' : Bool} {fields : Punctuated Node} (h : Indexers b fields) {x : Pair Node}
    (h1 : indexer x.value = true → b = false ∧ b' = true) (h2 : b = true → b' = true) : Indexers b' (fields.push x) := by
  unfold Indexers at *
  rw [values_push, List.filter_append, List.length_append]
  cases hx : indexer x.value with
  | true =>
    obtain ⟨rfl, rfl⟩ := h1 hx
    simp [hx] at h ⊢
    simpa using h
  | false =>
    cases b with
    | true => simp [hx, h2 rfl] at h ⊢; exact h
    | false =>
      have : ((values fields).filter indexer).length = 0 := by simpa using h
      simp [hx, this]

theorem Indexers.one {b : Bool} {fields : Punctuated Node} (h : Indexers b fields) : OneIndexer (punct fields) := by
  unfold OneIndexer
  rw [elements_punct']
  refine Nat.le_trans h ?_
  cases b <;> decide

/-- How the loop over the fields ends. -/
def LQ (c : Cfg) (fields : Punctuated Node) (l : List TokRef) (r : TableEnd) (l' : List TokRef) : Prop :=
  match r with
  | .err => False
  | .done right fs => PEl (Conf c (.cat .typeField)) [.comma, .semicolon] fs ∧ Sep .trailing fs ∧ is .rightBrace right = true ∧
    yield fields ++ l = yield fs ++ right :: l' ∧ OneIndexer (punct fs)
  | .fields fs => (∀ t, Hd l' t → is .rightBrace t = false) ∨
    PEl (Conf c (.cat .typeField)) [.comma, .semicolon] fs ∧ Sep .trailing fs ∧ yield fields ++ l = yield fs ++ l' ∧ OneIndexer (punct fs)
  | .array a ty => OptP IsAccess a ∧ Conf c .type ty ∧ yield fields ++ l = yield a ++ ty.flat ++ l' ∧ single ty = true ∧ NoAccess (optTok a) ty

theorem typeTableLoop_clean (hs : RecC c self) (hl : c.luau = true) : ∀ (m : Nat) (l : List TokRef) (fields : Punctuated Node) (b : Bool),
    PEl (Conf c (.cat .typeField)) [.comma, .semicolon] fields → Open fields → Indexers b fields →
    cwp (typeTableLoop self m fields b) l (LQ c fields l)
  | 0, _, _, _, _, _, _ => cwp_diverge
  | m + 1, l, fields, b, hf, ho, hix => by
    have ih := typeTableLoop_clean hs hl m
    unfold typeTableLoop
    refine cwp_bind (cwp_mono (tableField_clean hs hl l) fun r l' hr => ?_)
    cases r with
    | field f b' =>
      obtain ⟨h1, h2, h3, h4⟩ := hr
      obtain rfl : l = f.flat ++ l' := h2
      csteps
      · rename_i t rest ht
        refine cwp_mono (ih _ _ _ (hf.push_punct h1 ?_) ho.push_punct (hix.push h3 h4)) fun r l' hr => ?_
        · simpa using ht
        · have e : yield (fields.push (.punctuated f t)) ++ rest = yield fields ++ (f.flat ++ t :: rest) := by simp
          unfold LQ at hr ⊢
          rw [e] at hr
          exact hr
      · exact .inr ⟨hf.push_end h1, ho.push_end, by simp, (hix.push h3 h4 (x := .end f)).one⟩
    | stop e =>
      refine cwp_pure ?_
      cases e with
      | err => exact hr
      | done right fs =>
        obtain ⟨rfl, h1, h2⟩ := hr
        exact ⟨hf, ho.trailing, h1, by rw [← h2]; simp, hix.one⟩
      | fields fs => exact .inl hr
      | array a ty =>
        obtain ⟨h0, h1, h2, h3, h4, h5⟩ := hr
        refine ⟨h1, h2, ?_, h4, h5⟩
        obtain ⟨ps⟩ := fields
        obtain rfl : ps = [] := h0
        exact h3

theorem cwp_typeTable (hs : RecC c self) (hl : c.luau = true) {left : TokRef} (hleft : is .leftBrace left = true) {l : List TokRef}
    {Q : Option Node → List TokRef → Prop}
    (h : ∀ v l', Conf c .type v → left :: l = v.flat ++ l' → isOne [.tyTable, .tyArray] v = true → Q (some v) l') :
    cwp (expectTypeTable self c left) l Q := by
  unfold expectTypeTable
  csteps
  refine cwp_mono (typeTableLoop_clean hs hl _ l .new false .new .new (by simp [Indexers])) fun r l' hr => ?_
  cases r with
  | err => exact hr.elim
  | done right fs =>
    obtain ⟨h1, h2, h3, h4, h5⟩ := hr
    obtain rfl : l = yield fs ++ right :: l' := h4
    refine cwp_pure (h _ _ ?_ ?_ rfl)
    · conf
    · flat
  | fields fs =>
    refine cwp_bind (cwp_requireOr fun t rest hl' ht => ?_)
    subst hl'
    rcases hr with hr | ⟨h1, h2, h3, h4⟩
    · have := hr t .cons; simp_all
    · obtain rfl : l = yield fs ++ t :: rest := h3
      refine cwp_pure (h _ _ ?_ ?_ rfl)
      · conf
      · flat
  | array a ty =>
    obtain ⟨h1, h2, h3, h4, h5⟩ := hr
    obtain rfl : l = yield a ++ ty.flat ++ l' := h3
    csteps
    refine h _ _ ?_ ?_ rfl
    · conf
    · flat

macro_rules | `(tactic| cspec) => `(tactic| (cwp_head expectTypeTable; refine cwp_typeTable (by assumption) (by assumption) (by assumption) (fun _ _ _ _ _ => ?_)))

/-! ## Function types -/

/-- The tokens of an argument. -/
instance : Yield Arg := ⟨fun a => yield a.name ++ a.type.flat⟩

theorem yield_arg (a : Arg) : yield a = yield a.name ++ a.type.flat := rfl
@[simp] theorem flat_arg (a : Arg) : a.node.flat = yield a := by
  obtain ⟨n, t⟩ := a
  rcases n with _ | ⟨a, b⟩ <;> simp [Arg.node, yield_arg]

/-- The argument conforms to the grammar. -/
def ArgC (c : Cfg) (a : Arg) : Prop := Conf c (.cat .typeInfo) a.type ∧ OptP (fun p => p.1.isIdent = true ∧ is .colon p.2 = true) a.name

theorem ArgC.node {a : Arg} (h : ArgC c a) : Conf c (.cat .typeArg) a.node := by
  obtain ⟨n, t⟩ := a
  obtain ⟨h1, h2⟩ := h
  cases n with
  | none => unfold Arg.node; conf
  | some p =>
    obtain ⟨h3, h4⟩ := optP_some.1 h2
    unfold Arg.node; conf

theorem yield_map {α β : Type} [Yield α] [Yield β] {f : α → β} {p : Punctuated α} (h : ∀ x ∈ p.pairs, yield (f x.value) = yield x.value) :
    yield (⟨p.pairs.map (Pair.map f)⟩ : Punctuated β) = yield p := by
  obtain ⟨ps⟩ := p
  induction ps with
  | nil => rfl
  | cons x ps ih =>
    have hx := h x (by simp)
    have ih' := ih fun y hy => h y (by simp [hy])
    simp only [yield_mk] at ih'
    simp only [List.map_cons, yield_mk, yield_cons, ih']
    congr 1
    cases x with
    | «end» v => simpa [Pair.map, Pair.value] using hx
    | punctuated v t => simpa [Pair.map, Pair.value] using hx

theorem cwp_argumentName {t : TokRef} {l : List TokRef} (ht : Hd l t) {Q : Option (TokRef × TokRef) → List TokRef → Prop}
    (h1 : ∀ u rest, t.isIdent = true → is .colon u = true → l = t :: u :: rest → Q (some (t, u)) rest) (h2 : Q none l) :
    cwp (argumentName t) l Q := by
  unfold argumentName
  csteps
  · exact h1 _ _ ‹_› ‹_› rfl
  · exact h2
  · exact h2

macro_rules | `(tactic| cspec) => `(tactic| (cwp_head argumentName; refine cwp_argumentName (by assumption) (fun _ _ _ _ _ => ?_) ?_))

/-- All but the last argument have single types; the last has one, or is variadic and has no name. -/
structure ArgsC (p : Punctuated Arg) : Prop where
  init : ∀ x ∈ p.pairs.dropLast, single x.value.type = true
  last : ∀ x, p.pairs.getLast? = some x → single x.value.type = true ∨ x.value.name = none ∧ variadic x.value.type = true

theorem ArgsC.all {p : Punctuated Arg} (h : ∀ x ∈ p.pairs, single x.value.type = true) : ArgsC p :=
  ⟨fun x hx => h x (List.dropLast_subset _ hx), fun x hx => .inl (h x (List.mem_of_getLast? hx))⟩

theorem single_push {p : Punctuated Arg} {x : Pair Arg} (h : ∀ x ∈ p.pairs, single x.value.type = true) (hx : single x.value.type = true) :
    ∀ y ∈ (p.push x).pairs, single y.value.type = true := by
  intro y hy
  simp only [Punctuated.push, List.mem_append, List.mem_singleton] at hy
  rcases hy with hy | rfl
  · exact h y hy
  · exact hx

theorem ArgsC.variadic {p : Punctuated Arg} {x : Pair Arg} (h : ∀ x ∈ p.pairs, single x.value.type = true) (hn : x.value.name = none)
    (hx : FM.Spec.variadic x.value.type = true) : ArgsC (p.push x) := by
  refine ⟨?_, ?_⟩
  · simp only [Punctuated.push, List.dropLast_concat]; exact h
  · simp only [Punctuated.push, List.getLast?_concat, Option.some.injEq]
    rintro y rfl; exact .inr ⟨hn, hx⟩

theorem pair_map_value {β : Type} {f : α → β} {x : Pair α} : (Pair.map f x).value = f x.value := by cases x <;> rfl

theorem values_map (f : α → Node) (p : Punctuated α) : values ⟨p.pairs.map (Pair.map f)⟩ = p.pairs.map fun x => f x.value := by
  simp [values, pair_map_value, Function.comp_def]

theorem ArgsC.args {p : Punctuated Arg} (h : ArgsC p) : ArgsOk (punct ⟨p.pairs.map (Pair.map Arg.node)⟩) := by
  have ht : ∀ a : Arg, argType a.node = some (a.type, a.name.isNone) := by
    rintro ⟨n, t⟩; cases n <;> rfl
  unfold ArgsOk
  rw [elements_punct', values_map, ← List.map_dropLast, List.getLast?_map]
  refine ⟨?_, ?_⟩
  · intro m hm t b hb
    obtain ⟨x, hx, rfl⟩ := List.mem_map.1 hm
    rw [ht] at hb
    cases hb
    exact h.init x hx
  · intro m hm t b hb
    obtain ⟨x, hx, rfl⟩ := Option.map_eq_some_iff.1 hm
    rw [ht] at hb
    cases hb
    rcases h.last x hx with h1 | ⟨h1, h2⟩
    · exact .inl h1
    · exact .inr ⟨by simp [h1], h2⟩

theorem ArgsC.tuple {p : Punctuated Arg} (h : ArgsC p) : TupleOk (punct ⟨p.pairs.map (Pair.map Arg.type)⟩) := by
  unfold TupleOk
  rw [elements_punct', values_map, ← List.map_dropLast, List.getLast?_map]
  refine ⟨?_, ?_⟩
  · intro m hm
    obtain ⟨x, hx, rfl⟩ := List.mem_map.1 hm
    exact h.init x hx
  · intro m hm
    obtain ⟨x, hx, rfl⟩ := Option.map_eq_some_iff.1 hm
    rcases h.last x hx with h1 | ⟨-, h2⟩
    · exact .inl h1
    · exact .inr h2

theorem typeArgsLoop_clean (hs : RecC c self) (hl : c.luau = true) : ∀ (m : Nat) (l : List TokRef) (g : Punctuated Arg),
    PEl (ArgC c) [.comma] g → Open g → (∀ t, Hd l t → is .rightParen t = true → g.pairs = []) →
    (∀ x ∈ g.pairs, single x.value.type = true) →
    cwp (typeArgsLoop self m g) l fun r l' => ∃ p, r = some p ∧ PEl (ArgC c) [.comma] p ∧ Sep .any p ∧
      yield g ++ l = yield p ++ l' ∧ ArgsC p
  | 0, _, _, _, _, _, _ => cwp_diverge
  | m + 1, l, g, hg, ho, hn, hsi => by
    have ih := typeArgsLoop_clean hs hl m
    unfold typeArgsLoop
    csteps
    · exact ⟨g, rfl, hg, .of_open ho (hn _ ‹_› ‹_›), rfl, .all hsi⟩
    · exact ⟨_, rfl, hg.push_end ⟨‹_›, optP_none.2 trivial⟩, ho.push_end, by simp [yield_arg], .variadic hsi rfl ‹_›⟩
    · refine cwp_mono (ih _ _ (hg.push_punct ⟨‹_›, optP_some.2 ⟨‹_›, ‹_›⟩⟩ (by simpa)) ho.push_punct ?_ (single_push hsi ‹_›)) ?_
      · rename_i hd hng
        intro t ht h; cases hd.inj ht; exact absurd h (by simp [hng])
      · rintro r l' ⟨p, rfl, h1, h2, h3, h4⟩
        exact ⟨p, rfl, h1, h2, by rw [← h3]; simp [yield_arg], h4⟩
    · exact ⟨_, rfl, hg.push_end ⟨‹_›, optP_some.2 ⟨‹_›, ‹_›⟩⟩, ho.push_end, by simp [yield_arg], .all (single_push hsi ‹_›)⟩
    · refine cwp_mono (ih _ _ (hg.push_punct ⟨‹_›, optP_none.2 trivial⟩ (by simpa)) ho.push_punct ?_ (single_push hsi ‹_›)) ?_
      · rename_i hd hng
        intro t ht h; cases hd.inj ht; exact absurd h (by simp [hng])
      · rintro r l' ⟨p, rfl, h1, h2, h3, h4⟩
        exact ⟨p, rfl, h1, h2, by rw [← h3]; simp [yield_arg], h4⟩
    · exact ⟨_, rfl, hg.push_end ⟨‹_›, optP_none.2 trivial⟩, ho.push_end, by simp [yield_arg], .all (single_push hsi ‹_›)⟩

/-- A type that is neither a union, an intersection nor optional, and what follows it. -/
structure SimpleC (style : Style) (v : Node) (l : List TokRef) : Prop where
  kind : isOne [.tyUnion, .tyIntersection, .tyOptional, .tyVariadic, .tyGenericPack] v = false
  tuple : ∀ cs, v = .node .tyTuple cs → ∃ a ps, cs = [a, punct ps]
  pack : style = .default → pack? v = false
  closed : openCallback v = true → Stops l
  named : Named v l

theorem SimpleC.of {style : Style} {v : Node} {l : List TokRef}
    (h : isOne [.tyTable, .tyArray, .tyTypeof, .tyBoolean, .tyString, .tyGeneric] v = true) : SimpleC style v l := by
  obtain ⟨k, cs, rfl, hk⟩ := isOne_iff.1 h
  simp only [List.mem_cons, List.not_mem_nil, or_false] at hk
  rcases hk with rfl | rfl | rfl | rfl | rfl | rfl <;>
    exact ⟨rfl, by simp, fun _ => rfl, by simp [openCallback], by simp [Named, endsName]⟩

/-- The result of a function for which some tokens were already taken. -/
def NQ (P : Node → List TokRef → Prop) (before l : List TokRef) (r : Option Node) (l' : List TokRef) : Prop :=
  ∃ v, r = some v ∧ P v l' ∧ before ++ l = v.flat ++ l'

/-- A function type or a list of types. -/
def FunC (c : Cfg) (style : Style) (v : Node) (l : List TokRef) : Prop := Conf c .type v ∧ SimpleC style v l

theorem functionTypeRest_clean (hs : RecC c self) (hl : c.luau = true) {style : Style} {force : Bool} {g : Option Node} {left right : TokRef}
    {args : Punctuated Arg} (hg : OptP (Conf c (.cat .genericDecl)) g) (hgd : NoDefaults (optNode g)) (hf : force = false → g = none)
    (h0 : is .leftParen left = true) (h1 : is .rightParen right = true) (ha : PEl (ArgC c) [.comma] args) (hsep : Sep .any args)
    (hac : ArgsC args) (l : List TokRef) :
    cwp (functionTypeRest self style force g left right args) l (NQ (FunC c style) (yield g ++ left :: (yield args ++ [right])) l) := by
  have e1 : yield (⟨args.pairs.map (Pair.map Arg.node)⟩ : Punctuated Node) = yield args :=
    yield_map fun x _ => flat_arg x.value
  have p1 : PEl (Conf c (.cat .typeArg)) [.comma] ⟨args.pairs.map (Pair.map Arg.node)⟩ := ha.map fun a h => h.node
  have p2 : PEl (Conf c (.cat .typeInfo)) [.comma] ⟨args.pairs.map (Pair.map Arg.type)⟩ := ha.map fun a h => h.1
  have s1 := hsep.map (f := Arg.node)
  have s2 := hsep.map (f := Arg.type)
  have a1 := hac.args
  have a2 := hac.tuple
  have tup : (force || args.pairs.any fun p => p.value.name.isSome) = false → (singleType args || style == .allowPack) = true →
      NQ (FunC c style) (yield g ++ left :: (yield args ++ [right])) l
      (some (.node .tyTuple [span left right, punct ⟨args.pairs.map (Pair.map Arg.type)⟩])) l := by
    intro hn hst
    simp only [Bool.or_eq_false_iff, List.any_eq_false] at hn
    have e2 : yield (⟨args.pairs.map (Pair.map Arg.type)⟩ : Punctuated Node) = yield args := by
      refine yield_map fun x hx => ?_
      have := hn.2 x hx
      rw [yield_arg]
      cases hname : x.value.name with
      | none => rfl
      | some p => simp [hname] at this
    rw [hf hn.1]
    refine ⟨_, rfl, ⟨?_, rfl, ?_, ?_, by simp [openCallback], by simp [Named, endsName]⟩, ?_⟩
    · conf
    · intro cs hcs; cases hcs; exact ⟨_, _, rfl⟩
    · intro hd
      subst hd
      have hst : singleType args = true := by simpa using hst
      unfold singleType at hst
      split at hst
      · rename_i p hp
        unfold pack?
        simp only
        rw [elements_punct', values_map, hp]
        simp only [List.map_cons, List.map_nil]
        cases hk : p.value.type with
        | tok t => rfl
        | node k cs =>
          rw [hk] at hst
          simp only [hasKind, Bool.not_eq_true', beq_eq_false_iff_ne, ne_eq] at hst
          simp only [isOne, kindOf, Option.any_some, List.contains_cons, List.contains_nil, Bool.or_false, beq_eq_false_iff_ne, ne_eq]
          exact fun h => hst h.symm
      · cases hst
    · simp [span, e2]
  have cb : ∀ arrow ret l', is .thinArrow arrow = true → Conf c (.cat .typeInfo) ret → led ret = false → Ended ret l' →
      NQ (FunC c style) (yield g ++ left :: (yield args ++ [right])) (arrow :: (ret.flat ++ l'))
        (some (.node .tyCallback [optNode g, span left right, punct ⟨args.pairs.map (Pair.map Arg.node)⟩, .tok arrow, ret])) l' := by
    intro arrow ret l' ha hr hled hend
    refine ⟨_, rfl, ⟨?_, rfl, nofun, fun _ => rfl, ?_, ?_⟩, ?_⟩
    · conf
    · intro ho
      simp only [openCallback, Bool.and_eq_true_iff, Bool.not_eq_true'] at ho
      exact hend.stops ho.1 ho.2
    · intro ho
      simp only [endsName] at ho
      exact hend.named ho
    · simp [span, flat_tyCallback, e1]
  unfold functionTypeRest
  generalize (force || args.pairs.any fun p => p.value.name.isSome) = b at tup
  csteps
  all_goals first
    | exact cb _ _ _ ‹_› ‹_› ‹_› ‹_›
    | exact tup (by simpa using ‹¬ b = true›) ‹_›

theorem functionTypeParens_clean (hs : RecC c self) (hl : c.luau = true) {style : Style} {force : Bool} {g : Option Node}
    (hg : OptP (Conf c (.cat .genericDecl)) g) (hgd : NoDefaults (optNode g)) (hf : force = false → g = none) (l : List TokRef) :
    cwp (functionTypeParens self style force g) l (NQ (FunC c style) (yield g) l) := by
  unfold functionTypeParens
  csteps
  refine cwp_mono (typeArgsLoop_clean hs hl _ _ .new .new .new (fun _ _ _ => rfl) (by simp [Punctuated.new])) ?_
  rintro r l' ⟨p, rfl, h1, h2, h3, h3'⟩
  obtain rfl : _ = yield p ++ l' := h3
  csteps
  refine cwp_mono (functionTypeRest_clean hs hl hg hgd hf ‹_› ‹_› h1 h2 h3' _) ?_
  rintro r l' ⟨v, rfl, h4, h5⟩
  exact ⟨v, rfl, h4, by rw [← h5]; simp⟩

theorem cwp_functionType (hs : RecC c self) (hl : c.luau = true) {style : Style} {l : List TokRef} {Q : Option Node → List TokRef → Prop}
    (h : ∀ v l', Conf c .type v → l = v.flat ++ l' → SimpleC style v l' → Q (some v) l') : cwp (expectFunctionType self c style) l Q := by
  unfold expectFunctionType
  refine cwp_bind (cwp_currentIs (fun t ht hp => ?_) fun t ht hp => ?_)
  · csteps
    · rename_i hnd _
      refine cwp_mono (functionTypeParens_clean hs hl (optP_some.2 ‹_›) (‹_ → NoDefaults _› rfl) (by simp) _) ?_
      rintro r l' ⟨v, rfl, h4, h5⟩
      exact h _ _ h4.1 h5 h4.2
    · refine cwp_mono (functionTypeParens_clean hs hl (optP_none.2 trivial) noDefaults_none (by simp) _) ?_
      rintro r l' ⟨v, rfl, h4, h5⟩
      exact h _ _ h4.1 h5 h4.2
  · refine cwp_bind (cwp_mono (Q := fun r l' => r = .notFound ∧ l' = l) ?_ ?_)
    · unfold parseGenericTypeList
      csteps
      · simp_all
      · exact ⟨rfl, rfl⟩
      · exact ⟨rfl, rfl⟩
    · rintro r l' ⟨rfl, rfl⟩
      refine cwp_mono (functionTypeParens_clean hs hl (optP_none.2 trivial) noDefaults_none (by simp) _) ?_
      rintro r l' ⟨v, rfl, h4, h5⟩
      exact h _ _ h4.1 h5 h4.2

macro_rules | `(tactic| cspec) => `(tactic| (cwp_head expectFunctionType; refine cwp_functionType (by assumption) (by assumption) (fun _ _ _ _ _ => ?_)))

/-! ## Simple types -/

theorem Hd.all {P : TokRef → Bool} {t : TokRef} {l : List TokRef} (h : Hd l t) (hp : ¬ P t = true) : ∀ u, Hd l u → P u = false := by
  intro u hu
  cases h.inj hu
  simpa using hp

theorem Stops.of {t : TokRef} {l : List TokRef} (h : Hd l t) (h1 : ¬ is .questionMark t = true) (h2 : ¬ is .pipe t = true)
    (h3 : ¬ is .ampersand t = true) : Stops l := fun u hu => ⟨h.all h1 u hu, h.all h2 u hu, h.all h3 u hu⟩

/-- The result of parsing a simple type. -/
def SimQ (c : Cfg) (style : Style) (l : List TokRef) (r : Res Node) (l' : List TokRef) : Prop :=
  match r with
  | .value v => Conf c .type v ∧ l = v.flat ++ l' ∧ SimpleC style v l'
  | .moved => False
  | .notFound => l' = l

theorem SimQ.value {style : Style} {l l' : List TokRef} {v : Node} (h : Conf c .type v) (hl : l = v.flat ++ l') (hs : SimpleC style v l') :
    SimQ c style l (.value v) l' := ⟨h, hl, hs⟩

theorem typeofType_clean (hs : RecC c self) {style : Style} {name : TokRef} (hn : isNamed c!"typeof" name = true) (l : List TokRef) :
    cwp (typeofType self c name) l (SimQ c style (name :: l)) := by
  unfold typeofType
  csteps
  refine .value ?_ ?_ (.of rfl)
  · conf
  · flat

theorem SimpleC.moduleBasic {style : Style} {a b d : Node} {l : List TokRef} {t : TokRef} (ht : Hd l t) (h : is .lessThan t = false) :
    SimpleC style (.node .tyModule [a, b, .node .idxBasic [d]]) l :=
  ⟨rfl, nofun, fun _ => rfl, by simp [openCallback], fun _ u hu => by rw [hu.inj ht]; exact h⟩

theorem SimpleC.moduleGeneric {style : Style} {a b : Node} {l : List TokRef} {cs : List Node} :
    SimpleC style (.node .tyModule [a, b, .node .idxGeneric cs]) l :=
  ⟨rfl, nofun, fun _ => rfl, by simp [openCallback], by simp [Named, endsName]⟩

theorem SimpleC.basic {style : Style} {x : TokRef} {l : List TokRef} (h : x.isIdent = true → ∀ t, Hd l t → is .lessThan t = false) :
    SimpleC style (.node .tyBasic [.tok x]) l :=
  ⟨rfl, nofun, fun _ => rfl, by simp [openCallback], fun h' => h (by simpa [endsName, TokRef.isIdent] using h')⟩

theorem moduleType_clean (hs : RecC c self) (hl : c.luau = true) {style : Style} {name p : TokRef} (hn : name.isIdent = true)
    (hty : startsTok (tokenNamed c!"typeof") (.tok name) = false) (hp : is .dot p = true)
    (l : List TokRef) : cwp (moduleType self name p) l (SimQ c style (name :: p :: l)) := by
  unfold moduleType
  csteps
  · refine .value ?_ ?_ .moduleGeneric
    · conf
    · flat
  · refine .value ?_ ?_ (.moduleBasic ‹_› ‹_›)
    · conf
    · flat

theorem nameType_clean (hs : RecC c self) (hl : c.luau = true) {style : Style} {t : TokRef} {l : List TokRef} (ht : Hd l t) (hi : t.isIdent = true) :
    cwp (nameType self c) l (SimQ c style l) := by
  have hty : ¬ (t.token.display == c!"typeof") = true → startsTok (tokenNamed c!"typeof") (.tok t) = false := by
    intro h
    rw [startsTok]
    simp only [Node.flat_tok, List.head?_cons, Option.any_some, tokenNamed, beq_eq_false_iff_ne, ne_eq]
    intro h'
    exact h (by simp [Token.display, h', TokenType.display])
  unfold nameType
  csteps
  · exact typeofType_clean hs (ident_display hi (by rename_i h; simpa using h)) _
  · exact moduleType_clean hs hl hi (hty ‹_›) ‹_› _
  · have := hty ‹_›
    refine .value ?_ ?_ (.of rfl)
    · conf
    · flat
  · have := hty ‹_›
    refine .value ?_ ?_ (.basic fun _ => Hd.all (P := is .lessThan) ‹_› ‹_›)
    · conf
    · flat

theorem parseSimpleType_clean (hs : RecC c self) (hl : c.luau = true) {style : Style} (l : List TokRef) :
    cwp (parseSimpleType self c style) l (SimQ c style l) := by
  have hnil : ∀ x : TokRef, is .kNil x = true → startsTok (tokenNamed c!"typeof") (.tok x) = false ∧ x.isIdent = false := by
    intro x h
    rw [is_iff] at h
    simp [startsTok, tokenNamed, h, TokRef.isIdent, TokenType.kind]
  unfold parseSimpleType
  csteps
  · obtain ⟨h1, h2⟩ := hnil _ ‹_›
    refine .value ?_ ?_ (.basic fun h => absurd h (by simp [h2]))
    · conf
    · flat
  · refine .value ?_ ?_ (.of rfl)
    · rename_i h _ _
      rcases Bool.or_eq_true_iff.1 h with h | h <;> conf
    · flat
  · refine .value ?_ ?_ (.of rfl)
    · conf
    · flat
  · exact nameType_clean hs hl ‹_› ‹_›
  · refine .value ‹_› ?_ (.of ?_)
    · simpa using ‹_ = _›
    · rename_i h
      obtain ⟨k, cs, rfl, hk⟩ := isOne_iff.1 h
      simp only [List.mem_cons, List.not_mem_nil, or_false] at hk
      rcases hk with rfl | rfl <;> rfl
  · exact .value ‹_› rfl ‹_›
  · rfl

/-! ## Unions and intersections -/

theorem cwp_simpleType (hs : RecC c self) (hl : c.luau = true) {style : Style} {l : List TokRef} {Q : Res Node → List TokRef → Prop}
    (h : ∀ v l', Conf c .type v → Conf c (.cat .typeInfo) v → l = v.flat ++ l' → SimpleC style v l' → Q (.value v) l') (h' : Q .notFound l) :
    cwp (parseSimpleType self c style) l Q := by
  refine cwp_mono (parseSimpleType_clean hs hl l) ?_
  rintro (v | _ | _) l' h1
  · exact h v l' h1.1 (cnf_type_cat h1.1) h1.2.1 h1.2.2
  · exact h1.elim
  · obtain rfl : l' = l := h1
    exact h'

macro_rules | `(tactic| cspec) => `(tactic| (cwp_head parseSimpleType; refine cwp_simpleType (by assumption) (by assumption) (fun _ _ _ _ _ _ => ?_) ?_))

/-- What is known about a type that can be a member of a union or of an intersection. -/
structure MemberC (v : Node) : Prop where
  kind : isOne [.tyUnion, .tyIntersection] v = false
  list : list? v = false
  variadic : variadic v = false

theorem pack_list {v : Node} (h : pack? v = false) : list? v = false := by
  unfold pack? at h
  unfold list?
  split
  · dsimp only at h
    split at h <;> simp_all
  · rfl

theorem firstType_other {v : Node} (h : isOne [.tyUnion, .tyIntersection, .tyOptional] v = false) : firstType v = v := by
  cases v with
  | tok t => simp [firstType]
  | node k cs => cases k <;> first | (cases h; done) | simp [firstType]

theorem SimpleC.member {style : Style} {v : Node} {l : List TokRef} (h : SimpleC style v l) (hl : list? v = false) : MemberC v := by
  have := h.kind
  cases v with
  | tok t => exact ⟨rfl, rfl, rfl⟩
  | node k cs => cases k <;> first | (cases this; done) | exact ⟨rfl, hl, rfl⟩

theorem SimpleC.single {v : Node} {l : List TokRef} (h : SimpleC .default v l) : single v = true := by
  have hp := h.pack rfl
  have := h.kind
  have hf : firstType v = v := firstType_other (by
    cases v with
    | tok t => rfl
    | node k cs => cases k <;> first | (cases this; done) | rfl)
  unfold FM.Spec.single
  rw [hf, hp, (h.member (pack_list hp)).variadic]; rfl

/-- What is known about the type read last. -/
structure CurC (b : Bool) (x : Suffix) (ty : Node) (l : List TokRef) : Prop where
  member : MemberC ty
  closed : openCallback ty = true → Stops l
  named : Named ty l
  single : single ty = true ∨ b = false ∧ x.types.pairs = [] ∧ x.leading = none
  opt : isOne [.tyOptional] ty = true → x.isUnion = true

/-- What holds between two types of a union or intersection. The first type is a single type if the flag is set. -/
structure SufC (c : Cfg) (b : Bool) (x : Suffix) : Prop where
  not_both : x.isUnion = false ∨ x.isIntersection = false
  opened : Open x.types
  union : x.isUnion = true → PEl (Conf c .type) [.pipe] x.types ∧ OptP (fun t => is .pipe t = true) x.leading
  inter : x.isIntersection = true → PEl (Conf c .type) [.ampersand] x.types ∧ OptP (fun t => is .ampersand t = true) x.leading
  neither : x.isUnion = false → x.isIntersection = false → x.types.pairs = [] ∧ x.leading = none
  members : ∀ m ∈ values x.types, MemberC m ∧ openCallback m = false
  rest : ∀ m ∈ (values x.types).tail, single m = true
  head : ∀ m ∈ values x.types, single m = true ∨ b = false ∧ x.leading = none
  opt : x.isUnion = false → ∀ m ∈ values x.types, isOne [.tyOptional] m = false

/-- The result of reading the rest of a type. -/
structure TailC (c : Cfg) (b : Bool) (lead : Option TokRef) (v : Node) (l : List TokRef) : Prop where
  conf : Conf c .type v
  single : b = true → single v = true
  led : lead = none → led v = false
  ended : Ended v l

/-- The result of reading the rest of a type, with its tokens. -/
def SuQ (c : Cfg) (b : Bool) (lead : Option TokRef) (l : List TokRef) (r : Res Node) (l' : List TokRef) : Prop :=
  ∃ v, r = .value v ∧ TailC c b lead v l' ∧ l = v.flat ++ l'

theorem mem_tail_push {p : Punctuated Node} {x : Pair Node} {P : Node → Prop} (h : ∀ m ∈ (values p).tail, P m) (hx : p.pairs ≠ [] → P x.value) :
    ∀ m ∈ (values (p.push x)).tail, P m := by
  intro m hm
  obtain ⟨ps⟩ := p
  cases ps with
  | nil => simp [values, Punctuated.push] at hm
  | cons y ps =>
    have : (values (Punctuated.push ⟨y :: ps⟩ x)).tail = (values ⟨y :: ps⟩).tail ++ [x.value] := by simp [values, Punctuated.push]
    rw [this, List.mem_append, List.mem_singleton] at hm
    rcases hm with hm | rfl
    · exact h m hm
    · exact hx (by simp)

theorem SufC.push {b : Bool} {x : Suffix} {ty : Node} {l : List TokRef} (hx : SufC c b x) (ht : CurC b x ty l) :
    (∀ m ∈ (values (x.types.push (.end ty))).tail, FM.Spec.single m = true) ∧
    ∀ m ∈ values (x.types.push (.end ty)), FM.Spec.single m = true ∨ b = false ∧ x.leading = none := by
  refine ⟨mem_tail_push hx.rest fun h => ?_, forall_push hx.head ?_⟩
  · rcases ht.single with h' | h'
    · exact h'
    · exact absurd h'.2.1 h
  · rcases ht.single with h' | h'
    · exact .inl h'
    · exact .inr ⟨h'.1, h'.2.2⟩

theorem SufC.allMembers {b : Bool} {x : Suffix} {ty : Node} {l : List TokRef} (hx : SufC c b x) (ht : CurC b x ty l)
    (h2 : x.types.pairs ≠ [] ∨ x.leading ≠ none) : Members (optTok x.leading) (punct (x.types.push (.end ty))) := by
  obtain ⟨hr, hh⟩ := hx.push ht
  constructor
  · rw [elements_punct']
    exact forall_push (fun m hm => ⟨(hx.members m hm).1.kind, (hx.members m hm).1.list⟩) ⟨ht.member.kind, ht.member.list⟩
  · rw [elements_punct', values_push, List.dropLast_concat]
    exact fun m hm => (hx.members m hm).2
  · rw [elements_punct']; exact hr
  · rw [elements_punct']
    intro h m hm
    rcases hh m hm with h' | h'
    · exact h'
    · rw [h'.2] at h; cases h
  · rw [elements_punct', values_push]
    intro h
    rcases h2 with h2 | h2
    · cases hp : x.types.pairs with
      | nil => exact absurd hp h2
      | cons y ys => simp [values, hp]
    · cases hl : x.leading with
      | none => exact absurd hl h2
      | some t => rw [hl] at h; cases h

theorem lastEnds_push (p : Punctuated Node) (ty : Node) : endsName.lastEnds ((p.push (.end ty)).pairs.map pairNode) = endsName ty := by
  obtain ⟨ps⟩ := p
  simp only [Punctuated.push, List.map_append, List.map_cons, List.map_nil, pairNode]
  induction ps with
  | nil => simp [endsName.lastEnds]
  | cons y ys ih =>
    rw [List.map_cons, List.cons_append, ← ih]
    cases ys <;> cases y <;> simp [endsName.lastEnds, pairNode]

theorem single_first {p : Punctuated Node} {ty v : Node} {lead : Option TokRef} {b : Bool} (hv : variadic v = false)
    (hf : lead = none → ∃ y ys, (p.push (.end ty)).pairs = y :: ys ∧ firstType v = firstType y.value) (hf' : lead ≠ none → firstType v = v)
    (hp : pack? v = false)
    (h : ∀ m ∈ values (p.push (.end ty)), single m = true ∨ b = false ∧ lead = none) (hb : b = true) : single v = true := by
  unfold single
  rw [hv]
  cases hl : lead with
  | some t => rw [hf' (by simp [hl]), hp]; rfl
  | none =>
    obtain ⟨y, ys, hy, e⟩ := hf hl
    rw [e]
    have := h y.value (by simp [values, hy])
    simp only [hb, Bool.true_eq_false, false_and, or_false, single, Bool.and_eq_true_iff] at this
    rw [this.2]; rfl

theorem push_first (p : Punctuated Node) (ty : Node) : ∃ y ys, (p.push (.end ty)).pairs = y :: ys := by
  obtain ⟨ps⟩ := p
  cases ps <;> simp [Punctuated.push]

theorem suffixResult_clean {b : Bool} {x : Suffix} (hx : SufC c b x) {ty : Node} (ht : Conf c .type ty) {l : List TokRef} (hc : CurC b x ty l)
    (h2 : x.types.pairs ≠ [] ∨ x.leading ≠ none) (hst : Stops l) :
    cwp (suffixResult { x with types := x.types.push (.end ty) }) l
      (SuQ c b x.leading (yield x.leading ++ yield x.types ++ ty.flat ++ l)) := by
  have hm := hx.allMembers hc h2
  have hh := (hx.push hc).2
  have hno : x.isUnion = false → NoOptional (punct (x.types.push (.end ty))) := by
    intro hu
    unfold NoOptional
    rw [elements_punct']
    refine forall_push (hx.opt hu) ?_
    cases ho : isOne [.tyOptional] ty with
    | false => exact ho
    | true => rw [hc.opt ho] at hu; cases hu
  have hn : Named ty l := hc.named
  have hle := lastEnds_push x.types ty
  obtain ⟨y, ys, hy⟩ := push_first x.types ty
  obtain ⟨hnb, ho, hu, hi, -, -, -, -, -⟩ := hx
  obtain ⟨types, u, i, leading⟩ := x
  unfold suffixResult
  dsimp only at *
  split
  · obtain ⟨h1, h2⟩ := hu rfl
    have h3 := h1.push_end ht
    have h4 := ho.push_end (v := ty) (style := .nonempty)
    have h5 : OptP (Term.sym [Symbol.pipe]).Is leading := by simpa [OptP] using h2
    refine cwp_pure ⟨_, rfl, ⟨?_, single_first rfl ?_ ?_ rfl hh, ?_, fun _ _ => hst, ?_⟩, ?_⟩
    · conf
    · rintro rfl
      refine ⟨y, ys, hy, ?_⟩
      show firstType (.node .tyUnion [.node .typeUnion [.node .absent _, .node .punct _]]) = _
      rw [hy]
      cases y <;> simp [firstType, pairNode, Pair.value]
    · intro h
      cases leading with
      | none => exact absurd rfl h
      | some t => simp [firstType, optTok, Node.some]
    · rintro rfl; rfl
    · intro he
      refine hn ?_
      simpa [endsName, punct, hle] using he
    · flat
  · obtain ⟨h1, h2⟩ := hi rfl
    have h3 := h1.push_end ht
    have h4 := ho.push_end (v := ty) (style := .nonempty)
    have h5 : OptP (Term.sym [Symbol.ampersand]).Is leading := by simpa [OptP] using h2
    have h6 := hno rfl
    refine cwp_pure ⟨_, rfl, ⟨?_, single_first rfl ?_ ?_ rfl hh, ?_, fun _ _ => hst, ?_⟩, ?_⟩
    · conf
    · rintro rfl
      refine ⟨y, ys, hy, ?_⟩
      show firstType (.node .tyIntersection [.node .typeIntersection [.node .absent _, .node .punct _]]) = _
      rw [hy]
      cases y <;> simp [firstType, pairNode, Pair.value]
    · intro h
      cases leading with
      | none => exact absurd rfl h
      | some t => simp [firstType, optTok, Node.some]
    · rintro rfl; rfl
    · intro he
      refine hn ?_
      simpa [endsName, punct, hle] using he
    · flat
  · exact cwp_panic

theorem SufC.toUnion {b : Bool} {x : Suffix} (h : SufC c b x) (hi : x.isIntersection = false) :
    PEl (Conf c .type) [.pipe] x.types ∧ OptP (fun t => is .pipe t = true) x.leading := by
  cases hu : x.isUnion with
  | true => exact h.union hu
  | false =>
    obtain ⟨h1, h2⟩ := h.neither hu hi
    obtain ⟨⟨ps⟩, u, i, leading⟩ := x
    obtain rfl : ps = [] := h1
    obtain rfl : leading = none := h2
    exact ⟨.new, optP_none.2 trivial⟩

theorem SufC.toInter {b : Bool} {x : Suffix} (h : SufC c b x) (hu : x.isUnion = false) :
    PEl (Conf c .type) [.ampersand] x.types ∧ OptP (fun t => is .ampersand t = true) x.leading := by
  cases hi : x.isIntersection with
  | true => exact h.inter hi
  | false =>
    obtain ⟨h1, h2⟩ := h.neither hu hi
    obtain ⟨⟨ps⟩, u, i, leading⟩ := x
    obtain rfl : ps = [] := h1
    obtain rfl : leading = none := h2
    exact ⟨.new, optP_none.2 trivial⟩

theorem SuQ.congr {b : Bool} {x y : Option TokRef} {l₁ l₂ : List TokRef} {r : Res Node} {l' : List TokRef} (h : SuQ c b x l₁ r l') (e : x = y) (e' : l₁ = l₂) :
    SuQ c b y l₂ r l' := e ▸ e' ▸ h

/-- Use a result for the same tokens, written differently. -/
macro "convert_fq" h:ident : tactic => `(tactic| (refine SuQ.congr $h rfl ?_; simp [Pair.new]))

theorem suffixLoop_clean (hs : RecC c self) (hl : c.luau = true) (b : Bool) : ∀ (m : Nat) (l : List TokRef) (x : Suffix) (ct : Option Node),
    SufC c b x → OptP (fun ty => Conf c .type ty ∧ CurC b x ty l) ct → (ct = none → x.isUnion = true ∨ x.isIntersection = true) →
    cwp (suffixLoop self c m x ct) l (SuQ c b x.leading (yield x.leading ++ yield x.types ++ yield ct ++ l))
  | 0, _, _, _, _, _, _ => cwp_diverge
  | m + 1, l, x, ct, hx, hct, hnc => by
    have ih := suffixLoop_clean hs hl b m
    have key : ∀ (ty : Node) (l : List TokRef), Conf c .type ty → CurC b x ty l → cwp (do
      match ← current with
      | none => suffixResult { x with types := x.types.push (.end ty) }
      | some t =>
        if is .questionMark t then
          if x.isIntersection then
            tokenError t "cannot mix union and intersection types"
            return .moved
          else
            let q ← take
            suffixLoop self c m { x with isUnion := true } (some (.node .tyOptional [ty, .tok q]))
        else if is .pipe t then
          if x.isIntersection then
            tokenError t "cannot mix union and intersection types"
            return .moved
          else
            let p ← take
            suffixLoop self c m { x with types := x.types.push (.new ty (some p)), isUnion := true } none
        else if is .ampersand t then
          if x.isUnion then
            tokenError t "cannot mix union and intersection types"
            return .moved
          else
            let p ← take
            suffixLoop self c m { x with types := x.types.push (.new ty (some p)), isIntersection := true } none
        else if x.types.isEmpty && x.leading.isNone then return .value ty
        else suffixResult { x with types := x.types.push (.end ty) }) l
        (SuQ c b x.leading (yield x.leading ++ yield x.types ++ ty.flat ++ l)) := by
      intro ty l ht hcur
      have hop : ∀ t, Hd l t → (is .questionMark t = true ∨ is .pipe t = true ∨ is .ampersand t = true) → openCallback ty = false := by
        intro t hd h
        cases ho : openCallback ty with
        | false => rfl
        | true =>
          obtain ⟨a1, a2, a3⟩ := hcur.closed ho t hd
          simp [a1, a2, a3] at h
      have hm1 := hcur.member.kind
      have hm2 := hcur.member.list
      obtain ⟨hr, hh⟩ := hx.push hcur
      csteps
      · rename_i hi q
        have hi : x.isIntersection = false := by simpa using ‹¬ x.isIntersection = true›
        have ho := hop _ ‹_› (.inl ‹_›)
        refine cwp_mono (ih _ { x with isUnion := true } (some _) ⟨.inr hi, hx.opened, fun _ => hx.toUnion hi, hx.inter, nofun, hx.members, hx.rest,
          hx.head, nofun⟩ (optP_some.2 ⟨?_, ⟨rfl, rfl, rfl⟩, nofun, by simp [Named, endsName], ?_, fun _ => rfl⟩) nofun) ?_
        · conf
        · refine hcur.single.imp (fun h => ?_) id
          simp only [single, Bool.and_eq_true_iff] at h
          simp only [single, firstType, h.2]; rfl
        · intro r l' h; convert_fq h
      · have hi : x.isIntersection = false := by simpa using ‹¬ x.isIntersection = true›
        have ho := hop _ ‹_› (.inr (.inl ‹_›))
        obtain ⟨h1, h2⟩ := hx.toUnion hi
        refine cwp_mono (ih _ { x with types := _, isUnion := true } none ⟨.inr hi, hx.opened.push_punct, fun _ => ⟨h1.push_punct ht (by simpa), h2⟩, ?_, nofun,
          forall_push hx.members ⟨hcur.member, ho⟩, ?_, ?_, nofun⟩ (optP_none.2 trivial) (fun _ => .inl rfl)) ?_
        · simp [hi]
        · rw [values_push] at hr ⊢; exact hr
        · rw [values_push] at hh ⊢; exact hh
        · intro r l' h; convert_fq h
      · have hi : x.isUnion = false := by simpa using ‹¬ x.isUnion = true›
        have ho := hop _ ‹_› (.inr (.inr ‹_›))
        obtain ⟨h1, h2⟩ := hx.toInter hi
        refine cwp_mono (ih _ { x with types := _, isIntersection := true } none ⟨.inl hi, hx.opened.push_punct, ?_, fun _ => ⟨h1.push_punct ht (by simpa), h2⟩, nofun,
          forall_push hx.members ⟨hcur.member, ho⟩, ?_, ?_, fun _ => forall_push (hx.opt hi) ?_⟩ (optP_none.2 trivial) (fun _ => .inr rfl)) ?_
        · simp [hi]
        · rw [values_push] at hr ⊢; exact hr
        · rw [values_push] at hh ⊢; exact hh
        · show isOne [.tyOptional] ty = false
          cases ho : isOne [.tyOptional] ty with
          | false => rfl
          | true => rw [hcur.opt ho] at hi; cases hi
        · intro r l' h; convert_fq h
      · rename_i hd _ _ _ h
        obtain ⟨h1, h2⟩ := Bool.and_eq_true_iff.1 h
        have h1 : x.types.pairs = [] := by simpa [Punctuated.isEmpty, Punctuated.len] using h1
        have h2 : x.leading = none := by simpa using h2
        have h3 : yield x.types = [] := by show yield x.types.pairs = []; rw [h1]; rfl
        refine ⟨ty, rfl, ⟨ht, fun hb => ?_, fun _ => ?_, fun _ _ => .of ‹_› ‹_› ‹_› ‹_›, hcur.named⟩, ?_⟩
        · rcases hcur.single with h | h
          · exact h
          · rw [hb] at h; cases h.1
        · cases ty with
          | tok t => rfl
          | node k cs => cases k <;> first | (cases hm1; done) | rfl
        · simp [h2, h3]
      · rename_i hd _ _ _ h
        refine suffixResult_clean hx ht hcur ?_ (.of ‹_› ‹_› ‹_› ‹_›)
        · cases h1 : x.types.pairs with
          | cons y ys => exact .inl nofun
          | nil =>
            cases h2 : x.leading with
            | some t => exact .inr nofun
            | none => simp [Punctuated.isEmpty, Punctuated.len, h1, h2] at h
    unfold suffixLoop
    cases ct with
    | some ty => exact cwp_bind (cwp_pure (key ty l (optP_some.1 hct).1 (optP_some.1 hct).2))
    | none =>
      refine cwp_bind ?_
      dsimp only
      refine cwp_bind (cwp_simpleType hs hl (fun v l' h1 h2 h3 h4 => ?_) ?_)
      · refine cwp_pure ?_
        subst h3
        refine cwp_mono (key v l' h1 ⟨h4.member (pack_list (h4.pack rfl)), h4.closed, h4.named, .inl h4.single, fun h => ?_⟩) ?_
        · have := h4.kind
          obtain ⟨k, cs, rfl, hk⟩ := isOne_iff.1 h
          simp only [List.mem_cons, List.not_mem_nil, or_false] at hk
          subst hk; cases this
        · intro r l' h; convert_fq h
      · csteps

theorem parseTypeSuffix_clean (hs : RecC c self) (hl : c.luau = true) {b : Bool} {ty : Node} (ht : Conf c .type ty) {l : List TokRef}
    (hc : CurC b ⟨.new, false, false, none⟩ ty l) :
    cwp (parseTypeSuffix self c (some ty)) l (SuQ c b none (ty.flat ++ l)) := by
  unfold parseTypeSuffix
  csteps
  refine cwp_mono (suffixLoop_clean hs hl b _ l ⟨.new, false, false, none⟩ (some ty) ⟨.inl rfl, .new, nofun, nofun, fun _ _ => ⟨rfl, rfl⟩, nofun, nofun,
    nofun, nofun⟩ (optP_some.2 ⟨ht, hc⟩) nofun) ?_
  intro r l' h; convert_fq h

theorem parseTypeSuffix_none_clean (hs : RecC c self) (hl : c.luau = true) (l : List TokRef) :
    cwp (parseTypeSuffix self c none) l (TyQ c l) := by
  have fin : ∀ t l r l', SuQ c true (some t) (t :: l) r l' → TyQ c (t :: l) r l' := by
    rintro t l r l' ⟨v, rfl, h, e⟩
    exact ⟨v, rfl, h.conf, e, h.single rfl, h.ended⟩
  unfold parseTypeSuffix
  csteps
  · rename_i h n rest
    refine cwp_mono (suffixLoop_clean hs hl true _ _ ⟨.new, true, false, some _⟩ none
      ⟨.inr rfl, .new, fun _ => ⟨.new, optP_some.2 ‹_›⟩, nofun, nofun, nofun, nofun, nofun, nofun⟩ (optP_none.2 trivial) fun _ => .inl rfl) ?_
    intro r l' h; refine fin _ _ _ _ ?_; convert_fq h
  · rename_i h n rest
    refine cwp_mono (suffixLoop_clean hs hl true _ _ ⟨.new, false, true, some _⟩ none
      ⟨.inl rfl, .new, nofun, fun _ => ⟨.new, optP_some.2 ‹_›⟩, nofun, nofun, nofun, nofun, nofun⟩ (optP_none.2 trivial) fun _ => .inr rfl) ?_
    intro r l' h; refine fin _ _ _ _ ?_; convert_fq h

theorem SimpleC.cur {style : Style} {b : Bool} {x : Suffix} {ty : Node} {l : List TokRef} (h : SimpleC style ty l) (hl : list? ty = false)
    (hs : FM.Spec.single ty = true ∨ b = false ∧ x.types.pairs = [] ∧ x.leading = none) : CurC b x ty l := by
  refine ⟨h.member hl, h.closed, h.named, hs, fun ho => ?_⟩
  have := h.kind
  obtain ⟨k, cs, rfl, hk⟩ := isOne_iff.1 ho
  simp only [List.mem_cons, List.not_mem_nil, or_false] at hk
  subst hk; cases this

theorem parseType_clean (hs : RecC c self) (hl : c.luau = true) (l : List TokRef) : cwp (parseType self c) l (TyQ c l) := by
  unfold parseType
  csteps
  · exact parseTypeSuffix_none_clean hs hl _
  · have hsc := ‹SimpleC .default _ _›
    refine cwp_mono (parseTypeSuffix_clean hs hl (b := true) ‹_› (hsc.cur (pack_list (hsc.pack rfl)) (.inl hsc.single))) ?_
    rintro r l' ⟨v, rfl, h, e⟩
    exact ⟨v, rfl, h.conf, e, h.single rfl, h.ended⟩

theorem parseTypeOrPack_clean (hs : RecC c self) (hl : c.luau = true) (l : List TokRef) :
    cwp (parseTypeOrPack self c) l (PkQ c l) := by
  unfold parseTypeOrPack
  csteps
  rename_i ty l' h1 h2 hsc
  have key : list? ty = false → cwp (parseTypeSuffix self c (some ty)) l' (PkQ c (ty.flat ++ l')) := by
    intro hli
    refine cwp_mono (parseTypeSuffix_clean hs hl (b := false) ‹_› (hsc.cur hli (.inr ⟨rfl, rfl, rfl⟩))) ?_
    rintro r l' ⟨v, rfl, h, e⟩
    exact ⟨v, rfl, cnf_type_cat h.conf, e, h.led rfl, h.ended⟩
  split
  · obtain ⟨a, ps, hps⟩ := hsc.tuple _ rfl
    have hlen : ∀ (parens : Node) (ts : List Node), [parens, .node .punct ts] = [a, punct ps] → list? (.node .tyTuple [parens, .node .punct ts]) = (ts.length != 1) := by
      intro parens ts e
      obtain ⟨rfl, e⟩ := List.cons.inj e
      simp only [punct, List.cons.injEq, Node.node.injEq, true_and, and_true] at e
      subst e
      show ((elements (punct ps)).length != 1) = _
      rw [elements_punct']; simp [values]
    csteps
    · refine ⟨_, rfl, h2, rfl, rfl, fun _ h => ?_, by simp [Named, endsName]⟩
      rw [hlen _ _ hps] at h
      simp_all
    · refine key ?_
      rw [hlen _ _ hps]
      simp_all
  · exact cwp_panic
  · exact cwp_panic
  · rename_i hne _ _
    refine key ?_
    cases ty with
    | tok t => rfl
    | node k cs =>
      unfold list?
      split
      · rename_i e
        cases e
        obtain ⟨a, ps, e⟩ := hsc.tuple _ rfl
        obtain ⟨rfl, e⟩ := List.cons.inj e
        simp only [punct, List.cons.injEq, and_true, true_and] at e
        subst e
        exact absurd rfl (hne _ _)
      · rfl

/-! ## Attributes and type specifiers -/

theorem attributesLoop_clean (hf : c.feat.luau = true) : ∀ (m : Nat) (l : List TokRef) (as : List Node), AllP (Conf c (.cat .luauAttr)) as →
    cwp (attributesLoop m as) l fun r l' => ∃ v, r = .value v ∧ AllP (Conf c (.cat .luauAttr)) v ∧ yield as ++ l = yield v ++ l'
  | 0, _, _, _ => cwp_diverge
  | m + 1, l, as, ha => by
    have ih := attributesLoop_clean hf m
    unfold attributesLoop
    csteps
    · rename_i at_ hat name rest hn
      refine cwp_mono (ih _ _ (allP_append.2 ⟨ha, allP_one.2 ?_⟩)) ?_
      · conf; exact hf
      · rintro r l' ⟨v, rfl, h1, h2⟩
        exact ⟨v, rfl, h1, by rw [← h2]; simp⟩
    · exact ⟨as, rfl, ha, rfl⟩

theorem cwp_attributes (hf : c.feat.luau = true) {l : List TokRef} {Q : Res (List Node) → List TokRef → Prop}
    (h : ∀ v l', AllP (Conf c (.cat .luauAttr)) v → l = yield v ++ l' → Q (.value v) l') : cwp parseAttributes l Q := by
  unfold parseAttributes
  csteps
  refine cwp_mono (attributesLoop_clean hf _ l [] (allP_nil.2 trivial)) ?_
  rintro r l' ⟨v, rfl, h1, h2⟩
  exact h v l' h1 h2

theorem cwp_typeSpecifier (hs : RecC c self) (hl : c.luau = true) {p : TokRef} (hp : is .colon p = true) {l : List TokRef}
    {Q : Option Node → List TokRef → Prop} (h : ∀ v l', Conf c (.cat .typeSpec) v → p :: l = v.flat ++ l' → SpecOk (optNode (some v)) → Q (some v) l') :
    cwp (expectTypeSpecifier self p) l Q := by
  unfold expectTypeSpecifier
  csteps
  refine h _ _ ?_ ?_ (by rintro _ ⟨⟩; assumption)
  · conf
  · flat

/-! ## Names -/

/-- The tokens of a name: attribute and type follow it. -/
instance : Yield Name := ⟨fun n => n.name :: (yield n.attr ++ yield n.typeSpec)⟩
theorem yield_name (n : Name) : yield n = n.name :: (yield n.attr ++ yield n.typeSpec) := rfl

/-- A name conforms to the grammar. -/
structure NameC (c : Cfg) (n : Name) : Prop where
  name : n.name.isIdent = true
  attr : OptP (Conf c (.cat .attribute)) n.attr
  typeSpec : OptP (Conf c (.cat .typeSpec)) n.typeSpec
  noAttr : c.lua54 = false → c.cfxlua = false → n.attr = none
  noType : c.luau = false → n.typeSpec = none
  one : n.attr = none ∨ n.typeSpec = none
  spec : SpecOk (optNode n.typeSpec)

theorem specOk_none : SpecOk (optNode none) := nofun

theorem forceNameWithTypes_clean (hs : RecC c self) {t : TokRef} (ht : t.isIdent = true) (l : List TokRef) :
    cwp (forceNameWithTypes self c t) l (VQ (fun n => NameC c n ∧ n.attr = none) (t :: l)) := by
  unfold forceNameWithTypes
  csteps
  · refine cwp_typeSpecifier hs ‹_› ‹_› fun v l' h1 h2 h3 => ?_
    refine cwp_pure ⟨⟨⟨ht, optP_none.2 trivial, optP_some.2 h1, fun _ _ => rfl, by simp_all, .inl rfl, h3⟩, rfl⟩, ?_⟩
    rw [h2, yield_name]; simp
  all_goals exact ⟨⟨⟨ht, optP_none.2 trivial, optP_none.2 trivial, fun _ _ => rfl, fun _ => rfl, .inl rfl, specOk_none⟩, rfl⟩, by simp [yield_name]⟩

theorem forceNameWithAttributes_clean (hs : RecC c self) {t : TokRef} (ht : t.isIdent = true) (l : List TokRef) :
    cwp (forceNameWithAttributes self c t) l (VQ (NameC c) (t :: l)) := by
  unfold forceNameWithAttributes
  csteps
  · rename_i hv left attr ha right hr rest
    refine ⟨⟨ht, optP_some.2 ?_, optP_none.2 trivial, fun h1 h2 => by simp_all, fun _ => rfl, .inr rfl, specOk_none⟩, ?_⟩
    · conf; simp_all [available]
    · rw [yield_name]; flat
  · exact cwp_mono (forceNameWithTypes_clean hs ht _) fun n l' h => ⟨h.1.1, h.2⟩
  · exact cwp_mono (forceNameWithTypes_clean hs ht _) fun n l' h => ⟨h.1.1, h.2⟩

theorem parseNameWithAttributes_clean (hs : RecC c self) (l : List TokRef) :
    cwp (parseNameWithAttributes self c) l (RQ (NameC c) l) := by
  unfold parseNameWithAttributes
  csteps
  · exact cwp_mono (forceNameWithAttributes_clean hs ‹_› _) fun n l' h => cwp_pure h
  · exact RQ.notFound

theorem parseNameWithTypes_clean (hs : RecC c self) (l : List TokRef) :
    cwp (parseNameWithTypes self c) l (RQ (fun n => NameC c n ∧ n.attr = none) l) := by
  unfold parseNameWithTypes
  csteps
  · exact cwp_mono (forceNameWithTypes_clean hs ‹_› _) fun n l' h => cwp_pure h
  · exact RQ.notFound

end FM.Parser.Clean
