import Verif.Proofs.Parser.CleanTypes

/-! Helper lemmas: the functions of Model/Parser/Expr, in runs that record nothing. -/

namespace FM.Parser.Clean
open FM.Spec FM.Parser

variable {c : Cfg} {self : Rec} {α : Type}

theorem luau_feat (h : c.luau = true) : c.feat.luau = true := by
  simp only [Cfg.luau, Cfg.has, LuaVersion.has, Bool.and_eq_true_iff] at h
  exact h.1

theorem cwp_found' [Yield α] {p : M (Res α)} {P : α → Prop} {l k : List TokRef} {Q : Res α → List TokRef → Prop}
    (h : cwp p l (FQ P k)) (h1 : ∀ v l', P v → k = yield v ++ l' → Q (.value v) l') : cwp p l Q := by
  refine cwp_mono h fun r l' hr => ?_
  cases r with
  | value v => exact h1 v l' hr.1 hr.2
  | moved => exact hr.elim
  | notFound => exact hr.elim

/-! ## Blocks that end with `end` -/

theorem cwp_nodeRange {n : Node} {l : List TokRef} {Q : TokRef × TokRef → List TokRef → Prop} (h : ∀ r, Q r l) : cwp (nodeRange n) l Q := by
  unfold nodeRange
  split
  · exact cwp_pure (h _)
  · exact cwp_panic

theorem cwp_blockRange {b : Blk} {t : TokRef} {l : List TokRef} {Q : TokRef × TokRef → List TokRef → Prop} (h : ∀ r, Q r l) :
    cwp (blockRange b t) l Q := by
  unfold blockRange
  split
  · exact cwp_nodeRange h
  · split
    · exact cwp_nodeRange h
    · exact cwp_pure (h _)

theorem cwp_block (hs : RecC c self) {l : List TokRef} {Q : Res Blk → List TokRef → Prop}
    (h : ∀ v l', Conf c .block v.node → l = yield v ++ l' → Q (.value v) l') : cwp self.block l Q :=
  cwp_found (hs.block l) h

macro_rules | `(tactic| cspec) => `(tactic| (cwp_head Rec.block; refine cwp_block (by assumption) (fun _ _ _ _ => ?_)))
macro_rules | `(tactic| cspec) => `(tactic| (cwp_head blockRange; refine cwp_blockRange (fun _ => ?_)))

theorem cwp_blockWithEnd (hs : RecC c self) {m : String} {t : TokRef} {l : List TokRef} {Q : Option (Blk × TokRef) → List TokRef → Prop}
    (h : ∀ b e l', Conf c .block b.node → is .kEnd e = true → l = yield b ++ e :: l' → Q (some (b, e)) l') :
    cwp (expectBlockWithEnd self c m t) l Q := by
  unfold expectBlockWithEnd
  csteps
  exact h _ _ _ ‹_› ‹_› rfl

macro_rules | `(tactic| cspec) => `(tactic| (cwp_head expectBlockWithEnd; refine cwp_blockWithEnd (by assumption) (fun _ _ _ _ _ _ => ?_)))

/-! ## Tables -/

theorem cwp_expressionKey (hs : RecC c self) {left : TokRef} (hl : is .leftBracket left = true) {l : List TokRef}
    {Q : Option Node → List TokRef → Prop}
    (h : ∀ v l', Conf c (.cat .field) v → left :: l = v.flat ++ l' → Q (some v) l') : cwp (expectExpressionKey self left) l Q := by
  unfold expectExpressionKey
  csteps
  refine h _ _ ?_ ?_
  · conf
  · flat

/-- The result of parsing a field. -/
def FieldQ (c : Cfg) (l : List TokRef) (r : CtorRes) (l' : List TokRef) : Prop :=
  match r with
  | .field n => Conf c (.cat .field) n ∧ l = n.flat ++ l'
  | .done right => is .rightBrace right = true ∧ l = right :: l'
  | .unfinished => False

theorem FieldQ.field {l l' : List TokRef} {n : Node} (h : Conf c (.cat .field) n) (hl : l = n.flat ++ l') : FieldQ c l (.field n) l' := ⟨h, hl⟩

theorem nameKeyField_clean (hs : RecC c self) {l : List TokRef} {t u : TokRef} (ht : Hd l t) (hi : t.isIdent = true) (hu : Hd l.tail u)
    (he : is .equal u = true) : cwp (nameKeyField self) l (FieldQ c l) := by
  unfold nameKeyField
  csteps
  refine .field ?_ ?_
  · conf
  · flat

theorem setField_clean (hf : c.feat.cfxlua = true) {l : List TokRef} {t : TokRef} (ht : Hd l t) (hi : is .dot t = true) :
    cwp setField l (FieldQ c l) := by
  unfold setField
  csteps
  · refine .field ?_ ?_
    · conf; exact hf
    · flat

theorem cwp_fieldErrorToken {left : TokRef} {p : Punctuated Node} {l : List TokRef} {Q : TokRef → List TokRef → Prop} (h : ∀ t, Q t l) :
    cwp (fieldErrorToken left p) l Q := by
  unfold fieldErrorToken
  split
  · exact cwp_lastToken h
  · exact cwp_pure (h _)

macro_rules | `(tactic| cspec) => `(tactic| (cwp_head fieldErrorToken; refine cwp_fieldErrorToken (fun _ => ?_)))

theorem noKeyField_clean (hs : RecC c self) {left : TokRef} {p : Punctuated Node} (l : List TokRef) :
    cwp (noKeyField self left p) l (FieldQ c l) := by
  unfold noKeyField
  csteps
  refine .field ?_ ?_
  · conf
  · flat

theorem ctorField_clean (hs : RecC c self) {left : TokRef} {p : Punctuated Node} (l : List TokRef) :
    cwp (ctorField self c left p) l (FieldQ c l) := by
  unfold ctorField
  csteps
  · exact ⟨‹_›, rfl⟩
  · refine cwp_expressionKey hs ‹_› fun v l' h1 h2 => ?_
    exact cwp_pure (.field h1 h2)
  · exact nameKeyField_clean hs ‹_› ‹_› ‹_› ‹_›
  · exact noKeyField_clean hs _
  · rename_i h; rw [Bool.and_eq_true_iff] at h; exact setField_clean h.1 ‹_› h.2
  · exact noKeyField_clean hs _

theorem ctorLoop_clean (hs : RecC c self) {left : TokRef} (hl : is .leftBrace left = true) : ∀ (m : Nat) (l : List TokRef) (fs : Punctuated Node),
    PEl (Conf c (.cat .field)) [.comma, .semicolon] fs → Open fs →
    cwp (ctorLoop self c left m fs) l (VQ (Conf c (.cat .tableCtor)) (left :: yield fs ++ l))
  | 0, _, _, _, _ => cwp_diverge
  | m + 1, l, fs, hf, ho => by
    have ih := ctorLoop_clean hs hl m
    unfold ctorLoop
    refine cwp_bind (cwp_mono (ctorField_clean hs l) ?_)
    rintro (n | right | _) l' h
    · obtain ⟨h1, rfl⟩ := h
      csteps
      · refine cwp_mono (ih _ _ (hf.push_punct h1 (Is_sym2.2 (Bool.or_eq_true_iff.1 ‹_›))) ho.push_punct) ?_
        rintro v l' ⟨h2, h3⟩
        exact ⟨h2, by rw [← h3]; simp⟩
      · have h2 := hf.push_end h1
        have h3 := ho.push_end (v := n) (style := .trailing)
        refine ⟨?_, ?_⟩
        · conf
        · flat
    · obtain ⟨h1, rfl⟩ := h
      csteps
      have h3 := ho.trailing
      refine ⟨?_, ?_⟩
      · conf
      · flat
    · exact h.elim

theorem cwp_tableConstructor (hs : RecC c self) {left : TokRef} (hl : is .leftBrace left = true) {l : List TokRef}
    {Q : Node → List TokRef → Prop} (h : ∀ v l', Conf c (.cat .tableCtor) v → left :: l = v.flat ++ l' → Q v l') :
    cwp (forceTableConstructor self c left) l Q := by
  unfold forceTableConstructor
  csteps
  exact cwp_mono (ctorLoop_clean hs hl _ l .new .new .new) fun v l' h' => h v l' h'.1 h'.2

/-! ## Prefixes and suffixes -/

instance : Yield Pre := ⟨fun p => p.node.flat⟩
theorem yield_pre (p : Pre) : yield p = p.node.flat := rfl

/-- A prefix conforms to the grammar. -/
def PreC (c : Cfg) (p : Pre) : Prop :=
  match p with
  | .expr e => Conf c .expr e ∧ kindOf e = some .exprParens
  | .name t => t.isIdent = true

theorem PreC.node {p : Pre} (h : PreC c p) : Conf c (.cat .prefix) p.node := by
  cases p with
  | expr e => obtain ⟨h1, h2⟩ := h; unfold Pre.node; conf; exact h2
  | name t => have h : t.isIdent = true := h; unfold Pre.node; conf

theorem parsePrefix_clean (hs : RecC c self) (l : List TokRef) : cwp (parsePrefix self c) l (RQ (PreC c) l) := by
  unfold parsePrefix
  csteps
  · refine RQ.value ⟨?_, rfl⟩ ?_
    · conf
    · rw [yield_pre, Pre.node]; flat
  · refine RQ.value ‹_› ?_
    rw [yield_pre, Pre.node]; flat
  · exact RQ.notFound

macro_rules | `(tactic| cspec) => `(tactic| (cwp_head parsePrefix; refine cwp_res (parsePrefix_clean (by assumption) _) (fun _ _ _ _ => ?_) ?_))

theorem EQ.res {l l' : List TokRef} {r : Res Node} (h : EQ c l r l') : RQ (Conf c .expr) l r l' := h.1

/-- What follows a list of expressions does not continue the last one. -/
structure ListCalm (c : Cfg) (v : Punctuated Node) (l : List TokRef) : Prop where
  paren : lastCallable (punct v) = true → NoParen l
  colons : c.luau = true → lastAsserts (punct v) = true → NoColons l

theorem cwp_expressionList (hs : RecC c self) {l : List TokRef} {Q : Res (Punctuated Node) → List TokRef → Prop}
    (h1 : ∀ v l', PEl (Conf c .expr) [.comma] v → Sep .nonempty v → l = yield v ++ l' →
      ListCalm c v l' → Q (.value v) l')
    (h2 : Q .notFound l) : cwp (parseExpressionList self) l Q := by
  refine cwp_mono (cwp_and (oneOrMore_clean (fun l => cwp_mono (hs.expr l) fun _ _ h => h.res) l)
    (oneOrMore_last (R := Calm c) (fun l => cwp_mono (hs.expr l) fun r l' h v hv => (h.2 v hv).2) l)) ?_
  rintro r l' ⟨hr, hc⟩
  cases r with
  | value v =>
    refine h1 v l' hr.1.1 hr.1.2 hr.2 ?_
    cases hx : v.pairs.getLast? with
    | none => exact ⟨by simp [lastCallable, punct, Node.children, hx], by simp [lastAsserts, punct, Node.children, hx]⟩
    | some x =>
      have hn := hr.1.2.2.2 (by decide) x hx
      cases x with
      | «end» e =>
        have := hc v e rfl hx
        exact ⟨fun h => this.paren (by simpa [lastCallable, punct, Node.children, hx, pairNode] using h),
          fun hl h => this.colons hl (by simpa [lastAsserts, punct, Node.children, hx, pairNode] using h)⟩
      | punctuated e t => cases hn
  | moved => exact hr.elim
  | notFound => obtain rfl : l' = l := hr; exact h2

macro_rules | `(tactic| cspec) => `(tactic| (cwp_head parseExpressionList; refine cwp_expressionList (by assumption) (fun _ _ _ _ _ _ => ?_) ?_))

theorem cwp_closeArguments {left : TokRef} (hl : is .leftParen left = true) {p : Punctuated Node} (hp : PEl (Conf c .expr) [.comma] p)
    (hs : Sep .any p) {l : List TokRef} : cwp (closeArguments c left p) l (RQ (Conf c (.cat .args)) (left :: yield p ++ l)) := by
  unfold closeArguments
  csteps
  cfin

theorem parseArguments_clean (hs : RecC c self) (l : List TokRef) : cwp (parseArguments self c) l (RQ (Conf c (.cat .args)) l) := by
  unfold parseArguments
  csteps
  · exact cwp_closeArguments ‹_› ‹_› (Sep.any ‹_› (by decide))
  · exact cwp_closeArguments ‹_› .new (.empty (by decide))
  · refine cwp_tableConstructor hs ‹_› fun v l' h1 h2 => ?_
    rw [h2]
    csteps
    cfin
  all_goals cfin

macro_rules | `(tactic| cspec) => `(tactic| (cwp_head parseArguments; refine cwp_res (parseArguments_clean (by assumption) _) (fun _ _ _ _ => ?_) ?_))

theorem dotSuffix_clean {m : String} {l : List TokRef} {t : TokRef} (ht : Hd l t)
    (hi : is .dot t = true ∨ c.feat.cfxlua = true ∧ is .questionMarkDot t = true) :
    cwp (dotSuffix m) l (RQ (Conf c (.cat .suffix)) l) := by
  unfold dotSuffix
  csteps
  refine RQ.value ?_ ?_
  · have : (Term.sym (if c.feat.cfxlua = true then [.dot, .questionMarkDot] else [.dot])).Is t := by
      rcases hi with h | ⟨h, h'⟩
      · split <;> simp [h]
      · simp [h, h']
    conf
  · flat

theorem bracketSuffix_clean (hs : RecC c self) {l : List TokRef} {t : TokRef} (ht : Hd l t) (hi : is .leftBracket t = true) :
    cwp (bracketSuffix self c) l (RQ (Conf c (.cat .suffix)) l) := by
  unfold bracketSuffix
  csteps
  cfin

theorem cwp_methodTypes (hs : RecC c self) {l : List TokRef} {Q : Option (Option Node) → List TokRef → Prop}
    (h : ∀ o l', OptP (Conf c (.cat .typeInst)) o → l = yield o ++ l' → Q (some o) l') : cwp (methodTypes self c) l Q := by
  unfold methodTypes
  csteps
  · refine cwp_typeInstantiation hs ‹_› ‹_› fun v l' h1 h2 => ?_
    exact cwp_pure (h _ _ (optP_some.2 h1) h2)
  all_goals exact h none _ (optP_none.2 trivial) rfl

macro_rules | `(tactic| cspec) => `(tactic| (cwp_head methodTypes; refine cwp_methodTypes (by assumption) (fun _ _ _ _ => ?_)))

theorem methodSuffix_clean (hs : RecC c self) {l : List TokRef} {t : TokRef} (ht : Hd l t) (hi : is .colon t = true) :
    cwp (methodSuffix self c) l (RQ (Conf c (.cat .suffix)) l) := by
  unfold methodSuffix
  csteps
  unfold methodNode
  cfin

theorem callSuffix_clean (hs : RecC c self) (l : List TokRef) :
    cwp (callSuffix self c) l (FQ (Conf c (.cat .suffix)) l) := by
  unfold callSuffix
  csteps
  cfin

theorem instSuffix_clean (hs : RecC c self) (hl : c.luau = true) {l : List TokRef} {t : TokRef} (ht : Hd l t) (hi : is .lessThan t = true) :
    cwp (instSuffix self) l (RQ (Conf c (.cat .suffix)) l) := by
  unfold instSuffix
  csteps
  refine cwp_typeInstantiation hs ‹_› ‹_› fun v l' h1 h2 => ?_
  rw [h2]
  csteps
  cfin

/-- The result of parsing a suffix. -/
def SufQ (c : Cfg) (l : List TokRef) (r : Res Node) (l' : List TokRef) : Prop :=
  match r with
  | .value v => Conf c (.cat .suffix) v ∧ l = v.flat ++ l'
  | .moved => False
  | .notFound => l' = l ∧ NoParen l

theorem SufQ.of {l l' : List TokRef} {r : Res Node} (h : RQ (Conf c (.cat .suffix)) l r l') {t : TokRef} (hd : Hd l t)
    (ht : ¬ (is .leftParen t || is .leftBrace t || t.isString) = true) : SufQ c l r l' := by
  cases r with
  | value v => exact h
  | moved => exact h.elim
  | notFound =>
    refine ⟨h, fun u hu => ?_⟩
    cases hu.inj hd
    simp only [Bool.or_eq_true_iff, not_or] at ht
    exact Bool.eq_false_iff.2 ht.1.1

theorem SufQ.other {l l' : List TokRef} {r : Res Node} (h : RQ (Conf c (.cat .suffix)) l r l') {t : TokRef} (hd : Hd l t)
    {s : Symbol} (ht : is s t = true) (hs : s ≠ .leftParen) : SufQ c l r l' := by
  cases r with
  | value v => exact h
  | moved => exact h.elim
  | notFound =>
    refine ⟨h, fun u hu => is_false_iff.2 fun h' => ?_⟩
    cases hu.inj hd
    rw [is_iff] at ht
    rw [h'] at ht
    exact hs (by cases ht; rfl)

theorem parseSuffix_clean (hs : RecC c self) (l : List TokRef) : cwp (parseSuffix self c) l (SufQ c l) := by
  unfold parseSuffix
  csteps
  · rename_i h; rw [Bool.and_eq_true_iff] at h
    exact cwp_mono (dotSuffix_clean ‹_› (.inr h)) fun _ _ h' => .other h' ‹_› h.2 nofun
  · exact cwp_mono (dotSuffix_clean ‹_› (.inl ‹_›)) fun _ _ h' => .other (s := .dot) h' ‹_› ‹_› nofun
  · exact cwp_mono (bracketSuffix_clean hs ‹_› ‹_›) fun _ _ h' => .other (s := .leftBracket) h' ‹_› ‹_› nofun
  · refine cwp_mono (callSuffix_clean hs _) fun r l' h' => ?_
    cases r with
    | value v => exact h'
    | _ => exact h'.elim
  · rename_i h _ _ _; rw [Bool.and_eq_true_iff] at h
    exact cwp_mono (instSuffix_clean hs h.1 ‹_› h.2) fun _ _ h' => .of h' ‹_› ‹_›
  · exact .of RQ.notFound ‹_› ‹_›
  · exact cwp_mono (methodSuffix_clean hs ‹_› ‹_›) fun _ _ h' => .of h' ‹_› ‹_›
  · exact .of RQ.notFound ‹_› ‹_›

theorem cwp_suffix (hs : RecC c self) {l : List TokRef} {Q : Res Node → List TokRef → Prop}
    (h1 : ∀ v l', Conf c (.cat .suffix) v → l = v.flat ++ l' → Q (.value v) l') (h2 : NoParen l → Q .notFound l) :
    cwp (parseSuffix self c) l Q := by
  refine cwp_mono (parseSuffix_clean hs l) fun r l' hr => ?_
  cases r with
  | value v => exact h1 v l' hr.1 hr.2
  | moved => exact hr.elim
  | notFound => obtain ⟨rfl, h⟩ := hr; exact h2 h

macro_rules | `(tactic| cspec) => `(tactic| (cwp_head parseSuffix; refine cwp_suffix (by assumption) (fun _ _ _ _ => ?_) (fun _ => ?_)))

theorem suffixesLoop_clean (hs : RecC c self) : ∀ (m : Nat) (l : List TokRef) (ss : List Node), AllP (Conf c (.cat .suffix)) ss →
    cwp (suffixesLoop self c m ss) l fun v l' => VQ (AllP (Conf c (.cat .suffix))) (yield ss ++ l) v l' ∧ NoParen l'
  | 0, _, _, _ => cwp_diverge
  | m + 1, l, ss, h => by
    have ih := suffixesLoop_clean hs m
    unfold suffixesLoop
    csteps
    · refine cwp_mono (ih _ _ (allP_append.2 ⟨h, allP_one.2 ‹_›⟩)) ?_
      rintro v l' ⟨⟨h2, h3⟩, h4⟩
      exact ⟨⟨h2, by rw [← h3]; simp⟩, h4⟩
    · exact ⟨⟨h, rfl⟩, ‹_›⟩

theorem prefixAndSuffixes_clean (hs : RecC c self) (l : List TokRef) :
    cwp (parsePrefixAndSuffixes self c) l fun r l' => RQ (fun p => PreC c p.1 ∧ AllP (Conf c (.cat .suffix)) p.2) l r l' ∧
      ∀ p, r = .value p → NoParen l' := by
  unfold parsePrefixAndSuffixes
  csteps
  · rename_i h _
    refine cwp_mono (suffixesLoop_clean hs _ _ [] (allP_nil.2 trivial)) ?_
    rintro v l' ⟨⟨h2, h3⟩, h4⟩
    refine cwp_pure ⟨RQ.value ⟨h, h2⟩ ?_, fun _ _ => h4⟩
    simp at h3
    simp [h3]
  · exact ⟨RQ.notFound, nofun⟩

theorem cwp_prefixAndSuffixes (hs : RecC c self) {l : List TokRef} {Q : Res (Pre × List Node) → List TokRef → Prop}
    (h1 : ∀ p l', PreC c p.1 ∧ AllP (Conf c (.cat .suffix)) p.2 → l = yield p ++ l' → NoParen l' → Q (.value p) l')
    (h2 : Q .notFound l) : cwp (parsePrefixAndSuffixes self c) l Q := by
  refine cwp_mono (prefixAndSuffixes_clean hs l) fun r l' hr => ?_
  obtain ⟨hr, hn⟩ := hr
  cases r with
  | value v => exact h1 v l' hr.1 hr.2 (hn v rfl)
  | moved => exact hr.elim
  | notFound => obtain rfl : l' = l := hr; exact h2

macro_rules | `(tactic| cspec) => `(tactic| (cwp_head parsePrefixAndSuffixes; refine cwp_prefixAndSuffixes (by assumption) (fun _ _ _ _ _ => ?_) ?_))

theorem hasKind_iff {k : Kind} {n : Node} : hasKind k n = true ↔ kindOf n = some k := by
  cases n with
  | tok t => simp [hasKind, kindOf]
  | node k' cs => simp [hasKind, kindOf]; exact eq_comm

theorem lastIsCall_iff {ss : List Node} : lastIsCall ss = true ↔ ss.getLast?.bind kindOf = some .suffixCall := by
  unfold lastIsCall
  cases ss.getLast? with
  | none => simp
  | some s => simp [hasKind_iff]

theorem callNode_conf {p : Pre} {ss : List Node} (hp : PreC c p) (hs : AllP (Conf c (.cat .suffix)) ss) (hc : lastIsCall ss = true) :
    Conf c (.cat .functionCall) (callNode p ss) := by
  have h := hp.node
  unfold callNode
  conf
  exact lastIsCall_iff.1 hc

theorem callNode_flat {p : Pre} {ss : List Node} : (callNode p ss).flat = yield p ++ yield ss := by
  rw [yield_pre]; unfold callNode; simp

theorem varNode_conf {p : Pre} {ss : List Node} (hp : PreC c p) (hs : AllP (Conf c (.cat .suffix)) ss) (hc : lastIsCall ss = false) :
    Conf c (.cat .var) (varNode p ss) := by
  have hc' : ss.getLast?.bind kindOf ≠ some .suffixCall := fun h => by rw [lastIsCall_iff.2 h] at hc; cases hc
  unfold varNode
  split
  · have h : Term.name.Is _ := Is_name.2 hp
    simp only [Is_name] at h
    conf
  · rename_i h
    have h1 := hp.node
    unfold varExprNode
    conf
    refine ⟨hc', ?_⟩
    rintro (rfl : ss = [])
    cases p with
    | name t => exact absurd rfl (h t rfl)
    | expr e => rfl

theorem varNode_flat {p : Pre} {ss : List Node} : (varNode p ss).flat = yield p ++ yield ss := by
  unfold varNode
  split
  · simp [yield_pre, Pre.node]
  · simp [yield_pre, varExprNode]

theorem prefixExprNode_conf {p : Pre} {ss : List Node} (hp : PreC c p) (hs : AllP (Conf c (.cat .suffix)) ss) :
    Conf c .expr (prefixExprNode p ss) := by
  unfold prefixExprNode
  split
  · exact hp.1
  · have h : Term.name.Is _ := Is_name.2 hp
    simp only [Is_name] at h
    conf
    rfl
  · rename_i h1 h2
    split
    · have := callNode_conf hp hs ‹_›
      conf
    · rename_i hc
      have h3 := varNode_conf hp hs (Bool.eq_false_iff.2 hc)
      have h4 : varNode p ss = varExprNode p ss := by
        unfold varNode
        split
        · exact absurd rfl (h2 _ rfl)
        · rfl
      rw [h4] at h3
      have h5 : ss ≠ [] := by
        rintro rfl
        cases p with
        | expr e => exact h1 e rfl rfl
        | name t => exact h2 t rfl rfl
      conf
      simp [varExprNode, Connected, parenthesised, vec, Node.children, h5]

theorem prefixExprNode_flat {p : Pre} {ss : List Node} : (prefixExprNode p ss).flat = yield p ++ yield ss := by
  unfold prefixExprNode
  split
  · simp [yield_pre, Pre.node]
  · simp [yield_pre, Pre.node]
  · split
    · simp [callNode_flat]
    · simp [yield_pre, varExprNode]

/-- An expression that is neither an operation nor an `if` expression. -/
def Plain (n : Node) : Prop := kindOf n ≠ some .exprBinary ∧ kindOf n ≠ some .exprUnary ∧ kindOf n ≠ some .exprIf ∧
  kindOf n ≠ some .exprAssertion

/-- Such an expression, conforming to the grammar. -/
def PlainC (c : Cfg) (n : Node) : Prop := Conf c .expr n ∧ Plain n ∧ callable n = false

/-! ## Function bodies -/

/-- The names and types of a parameter list. -/
theorem flatNames_both {x t : Node} : ∀ {ps ts : List Node}, ts.length = ps.length →
    flatNames (ps ++ [x]) [] (ts ++ [t]) = flatNames ps [] ts ++ (part (x.children.map Node.flat) 0 ++ t.flat ++ part (x.children.map Node.flat) 1)
  | [], [], _ => by simp [flatNames, joinNames, part]
  | p :: ps, u :: ts, h => by
    have ih := flatNames_both (x := x) (t := t) (ps := ps) (ts := ts) (by simpa using h)
    simp only [flatNames, List.map_nil, List.map_append, List.map_cons] at ih
    simp only [flatNames, List.map_nil, List.map_append, List.map_cons, List.cons_append, joinNames, List.tail_cons, List.tail_nil, ih, part]
    simp

theorem flatNames_first {x : Node} : ∀ {ps ts : List Node}, ts.length ≤ ps.length →
    flatNames (ps ++ [x]) [] ts = flatNames ps [] ts ++ (part (x.children.map Node.flat) 0 ++ part (x.children.map Node.flat) 1)
  | [], [], _ => by simp [flatNames, joinNames, part]
  | p :: ps, [], h => by
    have ih := flatNames_first (x := x) (ps := ps) (ts := []) (by simp)
    simp only [flatNames, List.map_nil, List.map_append, List.map_cons] at ih
    simp only [flatNames, List.map_nil, List.map_append, List.map_cons, List.cons_append, joinNames, List.tail_cons, List.tail_nil, ih, part]
    simp
  | p :: ps, u :: ts, h => by
    have ih := flatNames_first (x := x) (ps := ps) (ts := ts) (by simpa using h)
    simp only [flatNames, List.map_nil, List.map_append, List.map_cons] at ih
    simp only [flatNames, List.map_nil, List.map_append, List.map_cons, List.cons_append, joinNames, List.tail_cons, List.tail_nil, ih, part]
    simp

/-- The tokens of parameters and their types. -/
def paramToks (p : Punctuated Node) (ts : List Node) : List TokRef := flatNames (p.pairs.map pairNode) [] ts

theorem paramToks_both {p : Punctuated Node} {ts : List Node} {x : Pair Node} {t : Node} (h : ts.length = p.pairs.length) :
    paramToks (p.push x) (ts ++ [t]) = paramToks p ts ++ (x.value.flat ++ (t.flat ++ yield x.punctuation)) := by
  simp only [paramToks, Punctuated.push, List.map_append, List.map_cons, List.map_nil]
  rw [flatNames_both (by simpa using h)]
  cases x <;> simp [pairNode, part, Node.children, Pair.value, Pair.punctuation]

theorem paramToks_first {p : Punctuated Node} {ts : List Node} {x : Pair Node} (h : ts.length ≤ p.pairs.length) :
    paramToks (p.push x) ts = paramToks p ts ++ (x.value.flat ++ yield x.punctuation) := by
  simp only [paramToks, Punctuated.push, List.map_append, List.map_cons, List.map_nil]
  rw [flatNames_first (by simpa using h)]
  cases x <;> simp [pairNode, part, Node.children, Pair.value, Pair.punctuation]

/-- A parameter that is not `...`. -/
def NotEllipsis (n : Node) : Prop := kindOf n = some .paramName

/-- The number of entries in the list of types. -/
def annotated (c : Cfg) (p : Punctuated Node) : Nat :=
  if c.luau then p.pairs.length else if c.feat.luau then (p.pairs.filter fun x => kindOf x.value == some .paramName).length else 0

theorem annotated_le {p : Punctuated Node} : annotated c p ≤ p.pairs.length := by
  have := List.length_filter_le (fun x : Pair Node => kindOf x.value == some .paramName) p.pairs
  unfold annotated
  split
  · omega
  · split <;> omega

theorem annotated_named {p : Punctuated Node} (h : ∀ x ∈ p.pairs, NotEllipsis x.value) (hf : c.feat.luau = true) :
    annotated c p = p.pairs.length := by
  unfold annotated
  split
  · rfl
  · rw [List.filter_eq_self.2 fun x hx => beq_iff_eq.2 (h x hx)]

theorem annotated_plain {p : Punctuated Node} (hf : c.feat.luau = false) : annotated c p = 0 := by
  unfold annotated
  rw [if_neg (fun h => by rw [luau_feat h] at hf; cases hf), if_neg (by simp [hf])]

/-- Parameters before the last one. -/
structure ParamsC (c : Cfg) (p : Punctuated Node) (ts : List Node) : Prop where
  conf : PEl (fun n => Conf c (.cat .param) n) [.comma] p
  types : AllP (Conf c (.opt (.cat .typeSpec))) ts
  sep : ∀ x ∈ p.pairs.dropLast, x.punctuation ≠ none
  names : ∀ x ∈ p.pairs.dropLast, NotEllipsis x.value
  length : ts.length = annotated c p
  specs : c.luau = true → SpecsOk (punct p) (vec ts)

/-- The result of parsing parameters. -/
def ParamsQ (c : Cfg) (l : List TokRef) (r : Params) (l' : List TokRef) : Prop :=
  match r with
  | .done right p ts => ParamsC c p ts ∧ is .rightParen right = true ∧ l = paramToks p ts ++ right :: l'
  | .unfinished _ => False

/-- The type of `...` is a single type or a pack. -/
def VarOk (o : Option Node) : Prop := ∀ t, specType (optNode o) = some t → single t = true ∨ isOne [.tyGenericPack] t = true

theorem VarOk.some {colon : TokRef} {t : Node} (h : single t = true ∨ isOne [.tyGenericPack] t = true) :
    VarOk (some (.node .typeSpec [.tok colon, t])) := by rintro _ ⟨⟩; exact h

theorem cwp_varargType (hs : RecC c self) (hl : c.luau = true) {l : List TokRef} {Q : Option (Option Node) → List TokRef → Prop}
    (h : ∀ o l', OptP (Conf c (.cat .typeSpec)) o → l = yield o ++ l' → VarOk o → Q (some o) l') : cwp (varargType self) l Q := by
  unfold varargType
  csteps
  all_goals first
    | exact h none _ (optP_none.2 trivial) rfl nofun
    | refine h _ _ (optP_some.2 ?_) ?_ (.some (by first | exact .inl ‹_› | exact .inr ‹_›))
      · conf
      · flat

macro_rules | `(tactic| cspec) => `(tactic| (cwp_head varargType; refine cwp_varargType (by assumption) (by assumption) (fun _ _ _ _ _ => ?_)))

theorem cwp_closeParams {p : Punctuated Node} {ts : List Node} (h : ParamsC c p ts) {l : List TokRef} :
    cwp (closeParams p ts) l (ParamsQ c (paramToks p ts ++ l)) := by
  unfold closeParams
  csteps
  exact ⟨h, ‹_›, rfl⟩


/-- Parameters collected so far. -/
structure ParamsA (c : Cfg) (p : Punctuated Node) (ts : List Node) : Prop where
  conf : PEl (fun n => Conf c (.cat .param) n) [.comma] p
  types : AllP (Conf c (.opt (.cat .typeSpec))) ts
  sep : Open p
  names : ∀ x ∈ p.pairs, NotEllipsis x.value
  luau : c.feat.luau = true → ts.length = p.pairs.length
  plain : c.feat.luau = false → ts = []
  specs : c.luau = true → SpecsOk (punct p) (vec ts)

theorem ParamsA.new : ParamsA c .new [] := ⟨.new, allP_nil.2 trivial, .new, nofun, fun _ => rfl, fun _ => rfl, fun _ => nofun⟩

theorem namedParam_pair (x : Pair Node) : namedParam (pairNode x) = (kindOf x.value == some .paramName) := by
  cases x <;> rfl

theorem SpecsOk.push {p : Punctuated Node} {ts : List Node} (h : SpecsOk (punct p) (vec ts)) (hl : ts.length = p.pairs.length) {x : Pair Node} {s : Node}
    (hx : ∀ t, specType s = some t → single t = true ∨ kindOf x.value ≠ some .paramName ∧ isOne [.tyGenericPack] t = true) :
    SpecsOk (punct (p.push x)) (vec (ts ++ [s])) := by
  intro q hq t ht
  have : (punct (p.push x)).children.zip (vec (ts ++ [s])).children = (punct p).children.zip (vec ts).children ++ [(pairNode x, s)] := by
    simp only [punct, vec, Node.children, Punctuated.push, List.map_append, List.map_cons, List.map_nil]
    rw [List.zip_append (by simp [hl])]; rfl
  rw [this, List.mem_append, List.mem_singleton] at hq
  rcases hq with hq | rfl
  · exact h q hq t ht
  · refine (hx t ht).imp id fun h => ⟨?_, h.2⟩
    rw [namedParam_pair, beq_eq_false_iff_ne]; exact h.1

theorem ParamsA.le {p : Punctuated Node} {ts : List Node} (h : ParamsA c p ts) : ts.length ≤ p.pairs.length := by
  cases hf : c.feat.luau
  · simp [h.plain hf]
  · simp [h.luau hf]

theorem ParamsA.done {p : Punctuated Node} {ts : List Node} (h : ParamsA c p ts) : ParamsC c p ts :=
  ⟨h.conf, h.types, fun x hx => h.sep x (List.dropLast_subset _ hx), fun x hx => h.names x (List.dropLast_subset _ hx), by
    cases hf : c.feat.luau
    · rw [annotated_plain hf, h.plain hf]; rfl
    · rw [annotated_named h.names hf, h.luau hf], h.specs⟩

theorem ParamsA.more {p : Punctuated Node} {ts : List Node} (h : ParamsA c p ts) {n : Name} (hn : NameC c n) {x : Pair Node} (hl : c.luau = true) :
    SpecsOk (punct (p.push x)) (vec (if c.feat.luau then ts ++ [optNode n.typeSpec] else ts)) := by
  rw [if_pos (luau_feat hl)]
  exact SpecsOk.push (h.specs hl) (h.luau (luau_feat hl)) fun t ht => .inl (hn.spec t ht)

/-- The types after one more name. -/
def moreTypes (c : Cfg) (ts : List Node) (n : Name) : List Node := if c.feat.luau then ts ++ [optNode n.typeSpec] else ts

theorem moreTypes_conf {ts : List Node} {n : Name} (h : AllP (Conf c (.opt (.cat .typeSpec))) ts) (hn : NameC c n) :
    AllP (Conf c (.opt (.cat .typeSpec))) (moreTypes c ts n) := by
  unfold moreTypes
  split
  · exact allP_append.2 ⟨h, allP_one.2 (cnf_optNode.2 hn.typeSpec)⟩
  · exact h

theorem ParamsA.toks {p : Punctuated Node} {ts : List Node} (h : ParamsA c p ts) {n : Name} (hn : NameC c n) (ha : n.attr = none)
    {f : Node → Pair Node} (hv : ∀ x, (f x).value = x) : paramToks (p.push (f (.node .paramName [.tok n.name]))) (moreTypes c ts n) =
      paramToks p ts ++ (yield n ++ yield (f (.node .paramName [.tok n.name])).punctuation) := by
  unfold moreTypes
  rw [yield_name, ha]
  split
  · rename_i hf
    rw [paramToks_both (h.luau hf), hv]
    simp
  · rename_i hf
    rw [paramToks_first h.le, hv]
    rw [hn.noType (Bool.eq_false_iff.2 fun h => hf (luau_feat h))]
    simp

theorem ParamsA.push {p : Punctuated Node} {ts : List Node} (h : ParamsA c p ts) {n : Name} (hn : NameC c n) {t : TokRef}
    (ht : is .comma t = true) : ParamsA c (p.push (.punctuated (.node .paramName [.tok n.name]) t)) (moreTypes c ts n) := by
  have hi := hn.name
  refine ⟨h.conf.push_punct ?_ (by simpa using ht), moreTypes_conf h.types hn, h.sep.push_punct, ?_, ?_, ?_, h.more hn⟩
  · conf
  · intro x hx
    simp only [Punctuated.push, List.mem_append, List.mem_singleton] at hx
    rcases hx with hx | rfl
    · exact h.names x hx
    · rfl
  · intro hf; simp [moreTypes, hf, Punctuated.push, h.luau hf]
  · intro hf; simp [moreTypes, hf, h.plain hf]

theorem ParamsA.push_end {p : Punctuated Node} {ts : List Node} (h : ParamsA c p ts) {n : Name} (hn : NameC c n) :
    ParamsC c (p.push (.end (.node .paramName [.tok n.name]))) (moreTypes c ts n) := by
  have hi := hn.name
  refine ⟨h.conf.push_end ?_, moreTypes_conf h.types hn, (h.sep.push_end (style := .any)).1, ?_, ?_, h.more hn⟩
  · conf
  · intro x hx
    simp only [Punctuated.push, List.dropLast_concat] at hx
    exact h.names x hx
  · cases hf : c.feat.luau
    · rw [annotated_plain hf]; simp [moreTypes, hf, h.plain hf]
    · rw [annotated_named _ hf]
      · simp [moreTypes, hf, Punctuated.push, h.luau hf]
      · intro x hx
        simp only [Punctuated.push, List.mem_append, List.mem_singleton] at hx
        rcases hx with hx | rfl
        · exact h.names x hx
        · rfl

theorem ellipsisParam_clean (hs : RecC c self) {p : Punctuated Node} {ts : List Node} (h : ParamsA c p ts) {l : List TokRef} {t : TokRef}
    (ht : Hd l t) (hi : is .ellipsis t = true) : cwp (ellipsisParam self c p ts) l (ParamsQ c (paramToks p ts ++ l)) := by
  have hc : Conf c (.cat .param) (.node .paramEllipsis [.tok t]) := by conf
  have hn : ∀ x ∈ (p.push (.end (.node .paramEllipsis [.tok t]))).pairs.dropLast, NotEllipsis x.value := by
    intro x hx
    simp only [Punctuated.push, List.dropLast_concat] at hx
    exact h.names x hx
  unfold ellipsisParam
  csteps
  · rename_i hl o l' ho hvar
    have := @cwp_closeParams c (p.push (.end (.node .paramEllipsis [.tok t]))) (ts ++ [optNode o])
      ⟨h.conf.push_end hc, allP_append.2 ⟨h.types, allP_one.2 (cnf_optNode.2 ho)⟩, (h.sep.push_end (style := .any)).1, hn,
        by rw [annotated, if_pos hl]; simp [Punctuated.push, h.luau (luau_feat hl)],
        fun _ => SpecsOk.push (h.specs hl) (h.luau (luau_feat hl)) fun t ht => (hvar t ht).imp id fun h => ⟨by simp [Pair.value, kindOf], h⟩⟩ l'
    rw [paramToks_both (h.luau (luau_feat hl))] at this
    simpa [Pair.value, Pair.punctuation] using this
  · rename_i rest hl
    have hlen : ts.length = annotated c (p.push (.end (.node .paramEllipsis [.tok t]))) := by
      unfold annotated
      rw [if_neg hl]
      cases hf : c.feat.luau
      · simp [h.plain hf]
      · simp only [Punctuated.push, List.filter_append, List.length_append, if_true]
        rw [List.filter_eq_self.2 fun x hx => beq_iff_eq.2 (h.names x hx), h.luau hf]
        rfl
    have := @cwp_closeParams c (p.push (.end (.node .paramEllipsis [.tok t]))) ts
      ⟨h.conf.push_end hc, h.types, (h.sep.push_end (style := .any)).1, hn, hlen, fun h => absurd h hl⟩ rest
    rw [paramToks_first h.le] at this
    simpa [Pair.value, Pair.punctuation] using this

theorem paramsLoop_clean (hs : RecC c self) : ∀ (m : Nat) (l : List TokRef) (p : Punctuated Node) (ts : List Node), ParamsA c p ts →
    cwp (paramsLoop self c m p ts) l (ParamsQ c (paramToks p ts ++ l))
  | 0, _, _, _, _ => cwp_diverge
  | m + 1, l, p, ts, h => by
    have ih := paramsLoop_clean hs m
    unfold paramsLoop
    csteps
    · exact ⟨h.done, ‹_›, rfl⟩
    · exact ellipsisParam_clean hs h ‹_› ‹_›
    · refine cwp_res (parseNameWithTypes_clean hs _) (fun n l' h1 h2 => ?_) cwp_panic
      subst h2
      csteps
      · rename_i _ comma rest hc _
        have := ih rest _ _ (h.push h1.1 hc)
        rw [h.toks h1.1 h1.2 (f := fun n => .punctuated n comma) fun _ => rfl] at this
        unfold moreTypes at this
        simpa [Pair.punctuation] using this
      · have := @cwp_closeParams c _ _ (h.push_end h1.1) l'
        rw [h.toks h1.1 h1.2 (f := fun n => .end n) fun _ => rfl] at this
        unfold moreTypes at this
        simpa [Pair.punctuation] using this

theorem cwp_bodyReturnType (hs : RecC c self) {l : List TokRef} {Q : Option (Option Node) → List TokRef → Prop}
    (h : ∀ o l', OptP (Conf c (.cat .typeSpec)) o → l = yield o ++ l' → ResultOk (optNode o) → Q (some o) l') : cwp (bodyReturnType self c) l Q := by
  unfold bodyReturnType
  csteps
  all_goals first
    | exact h none _ (optP_none.2 trivial) rfl nofun
    | refine h _ _ (optP_some.2 ?_) ?_ (by rintro _ ⟨⟩; assumption)
      · conf
      · flat

macro_rules | `(tactic| cspec) => `(tactic| (cwp_head bodyReturnType; refine cwp_bodyReturnType (by assumption) (fun _ _ _ _ _ => ?_)))

theorem annotated_eq (p : Punctuated Node) : annotated c p = if c.luau then (punct p).children.length else
    if c.feat.luau then ((punct p).children.filter namedParam).length else 0 := by
  have : ((punct p).children.filter namedParam).length = (p.pairs.filter fun x => kindOf x.value == some .paramName).length := by
    rw [punct, Node.children, List.filter_map, List.length_map]
    congr 2
    funext x
    exact namedParam_pair x
  rw [this, annotated]
  simp [punct, Node.children]

theorem bodyRest_clean (hs : RecC c self) {g : Option Node} (hg : OptP (Conf c (.cat .genericDecl)) g) (hgd : NoDefaults (optNode g)) {left right : TokRef}
    (hl : is .leftParen left = true) (hr : is .rightParen right = true) {p : Punctuated Node} {ts : List Node} (hp : ParamsC c p ts)
    {l : List TokRef} : cwp (bodyRest self c g left right p ts) l
      (FQ (Conf c (.cat .funcBody)) (yield g ++ left :: (paramToks p ts ++ right :: l))) := by
  unfold bodyRest
  refine cwp_bind (cwp_dropTrailing fun hlast => ?_)
  csteps
  have h1 := hp.conf
  have h2 := hp.types
  have h3 : Sep .any p := ⟨hp.sep, nofun, fun _ => hlast⟩
  refine FQ.value ?_ ?_
  · conf
    refine ⟨⟨?_, ?_⟩, ?_⟩
    · intro q hq
      simp only [punct, Node.children, ← List.map_dropLast, List.mem_map] at hq
      obtain ⟨x, hx, rfl⟩ := hq
      rw [namedParam_pair, beq_iff_eq]; exact hp.names x hx
    · rw [← annotated_eq, ← hp.length]; simp [vec, Node.children]
    · exact hp.specs
  · rw [yield_node, span, punct, vec, flat_funcBody]
    simp [paramToks]

theorem cwp_bodyParens (hs : RecC c self) {g : Option Node} (hg : OptP (Conf c (.cat .genericDecl)) g) (hgd : NoDefaults (optNode g)) {l : List TokRef}
    {Q : Res Node → List TokRef → Prop} (h : ∀ v l', Conf c (.cat .funcBody) v → yield g ++ l = v.flat ++ l' → Q (.value v) l')
    (h' : ∀ l', Q .notFound l') : cwp (bodyParens self c g) l Q := by
  unfold bodyParens
  csteps
  · refine cwp_mono (paramsLoop_clean hs _ _ _ _ .new) ?_
    rintro (⟨right, p, ts⟩ | _) l' h1
    · obtain ⟨h1, h2, h3⟩ := h1
      have h3 : _ = _ := h3
      simp only [paramToks, flatNames, Punctuated.new, List.map_nil, joinNames, List.nil_append] at h3
      subst h3
      exact cwp_found' (bodyRest_clean hs hg hgd ‹_› h2 h1) fun v l' h3 h4 => h v l' h3 h4
    · exact h1.elim
  · exact h' _

theorem cwp_functionBody (hs : RecC c self) {l : List TokRef}
    {Q : Res Node → List TokRef → Prop} (h : ∀ v l', Conf c (.cat .funcBody) v → l = v.flat ++ l' → Q (.value v) l')
    (h' : ∀ l', Q .notFound l') : cwp (parseFunctionBody self c) l Q := by
  unfold parseFunctionBody
  csteps
  · exact cwp_bodyParens hs (optP_some.2 ‹_›) (‹_ → NoDefaults _› rfl) h h'
  · exact cwp_bodyParens hs (optP_none.2 trivial) noDefaults_none h h'

macro_rules | `(tactic| cspec) => `(tactic| (cwp_head parseFunctionBody; refine cwp_functionBody (by assumption) (fun _ _ _ _ => ?_) (fun _ => ?_)))

theorem anonymousFunction_clean (hs : RecC c self) {as : List Node} (ha : AllP (Conf c (.cat .luauAttr)) as) {l : List TokRef} {t : TokRef}
    (ht : Hd l t) (hi : is .kFunction t = true) : cwp (anonymousFunction self c as) l (FQ (PlainC c) (yield as ++ l)) := by
  unfold anonymousFunction
  csteps
  refine FQ.value ⟨?_, by simp [Plain, kindOf], by simp [callable]⟩ ?_
  · conf
  · flat

theorem attributedFunction_clean (hs : RecC c self) (hf : c.feat.luau = true) (l : List TokRef) :
    cwp (attributedFunction self c) l (FQ (PlainC c) l) := by
  unfold attributedFunction
  refine cwp_bind (cwp_attributes hf fun v l' h1 h2 => ?_)
  subst h2
  csteps
  exact anonymousFunction_clean hs h1 ‹_› ‹_›

/-! ## `if` expressions -/

theorem cwp_ifOperand (hs : RecC c self) {l : List TokRef} {Q : Option Node → List TokRef → Prop}
    (h : ∀ v l', Conf c .expr v → l = v.flat ++ l' → NoOp c l' ∧ Calm c v l' → Q (some v) l') : cwp (ifOperand self) l Q := by
  unfold ifOperand
  csteps
  exact h _ _ ‹_› rfl ‹_›

macro_rules | `(tactic| cspec) => `(tactic| (cwp_head ifOperand; refine cwp_ifOperand (by assumption) (fun _ _ _ _ _ => ?_)))

theorem cwp_ifPart (hs : RecC c self) {l : List TokRef} {Q : Option (Node × TokRef × Node) → List TokRef → Prop}
    (h : ∀ a t b l', Conf c .expr a → is .kThen t = true → Conf c .expr b → l = a.flat ++ t :: (b.flat ++ l') → Q (some (a, t, b)) l') :
    cwp (ifPart self) l Q := by
  unfold ifPart
  csteps
  exact h _ _ _ _ ‹_› ‹_› ‹_› rfl

macro_rules | `(tactic| cspec) => `(tactic| (cwp_head ifPart; refine cwp_ifPart (by assumption) (fun _ _ _ _ _ _ _ _ => ?_)))

theorem elseIfExprs_clean (hs : RecC c self) : ∀ (m : Nat) (l : List TokRef) (ps : List Node), AllP (Conf c (.cat .elseIfExpr)) ps →
    cwp (elseIfExprs self m ps) l fun r l' => ∃ v, r = some v ∧ AllP (Conf c (.cat .elseIfExpr)) v ∧ yield ps ++ l = yield v ++ l'
  | 0, _, _, _ => cwp_diverge
  | m + 1, l, ps, h => by
    have ih := elseIfExprs_clean hs m
    unfold elseIfExprs
    csteps
    · refine cwp_mono (ih _ _ (allP_append.2 ⟨h, allP_one.2 ?_⟩)) ?_
      · conf
      · rintro r l' ⟨v, rfl, h2, h3⟩
        exact ⟨v, rfl, h2, by rw [← h3]; simp⟩
    · exact ⟨_, rfl, h, rfl⟩

theorem cwp_ifElse (hs : RecC c self) {t : TokRef} (ht : is .kIf t = true) {l : List TokRef} {Q : Option Node → List TokRef → Prop}
    (h : ∀ v l', Conf c (.cat .ifExpr) v → t :: l = v.flat ++ l' → NoOp c l' → Calm0 c (.node .exprIf [v]) l' → Q (some v) l') :
    cwp (expectIfElse self t) l Q := by
  unfold expectIfElse
  csteps
  refine cwp_mono (elseIfExprs_clean hs _ _ [] (allP_nil.2 trivial)) ?_
  rintro r l' ⟨v, rfl, h2, h3⟩
  simp only [yield_nil, List.nil_append] at h3
  subst h3
  csteps
  rename_i hcalm
  obtain ⟨hno, hcalm⟩ := hcalm
  refine h _ _ ?_ ?_ hno ⟨rfl, fun h => hcalm.paren (by simpa only [callable] using h), fun hl h => hcalm.colons hl h,
    fun hl t ht => hcalm.typed hl t (by simpa only [lastType] using ht)⟩
  · conf
  · flat

/-! ## Interpolated strings -/

theorem tokenIs_is {s : Symbol} {t : TokRef} : tokenIs s t = is s t := by
  unfold tokenIs
  cases h : is s t with
  | true => rw [is_iff] at h; simp [h]
  | false =>
    have : ¬ is s t = true := by simp [h]
    rw [is_iff] at this
    simpa using this


theorem interpKind_section {t : TokRef} : section? (.tok t) = interpKind t := rfl
theorem interpKind_segment {t : TokRef} {e : Node} : section? (.node .interpSegment [.tok t, e]) = interpKind t := rfl

theorem interpKind_is {t : TokRef} {k : InterpKind} (h : interpKind t = some k) : Term.interp.Is t := by
  unfold interpKind at h
  unfold Term.Is
  split at h
  · rename_i hk; simp [hk, TokenType.kind]
  · cases h

theorem cwp_doubleBrace {t : TokRef} {l : List TokRef} {Q : Bool → List TokRef → Prop}
    (h : (t.trailing = [] → ∀ u, Hd l u → is .leftBrace u = false) → Q false l) : cwp (doubleBrace t) l Q := by
  unfold doubleBrace
  csteps
  · exact h fun _ => Hd.all (P := is .leftBrace) ‹_› (by simpa using ‹_›)
  · rename_i hn
    exact h fun h' => absurd h' (by simpa using hn)

macro_rules | `(tactic| cspec) => `(tactic| (cwp_head doubleBrace; refine cwp_doubleBrace (fun _ => ?_)))

/-- The segments before the current section. -/
structure SegC (c : Cfg) (first cur : TokRef) (ss : List Node) : Prop where
  conf : AllP (Conf c (.cat .interpSegment)) ss
  kind : ∃ k, interpKind cur = some k ∧ k ≠ .end_
  empty : ss = [] → interpKind cur = some .begin
  head : ∀ s rest, ss = s :: rest → section? s = some .begin ∧ ∀ x ∈ rest, section? x ≠ some .end_

theorem interpLoop_clean (hs : RecC c self) {first : TokRef} : ∀ (m : Nat) (l : List TokRef) (cur : TokRef) (ss : List Node), SegC c first cur ss →
    cwp (interpLoop self first m cur ss) l (VQ (Conf c (.cat .interpString)) (yield ss ++ cur :: l))
  | 0, _, _, _, _ => cwp_diverge
  | m + 1, l, cur, ss, h => by
    have ih := interpLoop_clean hs (first := first) m
    obtain ⟨k, hk, hne⟩ := h.kind
    have hcur := interpKind_is hk
    unfold interpLoop skipBrace
    csteps
    rename_i e l' he hn hbrace next hnext
    have hbr : BraceOk cur e := fun h => starts_hd (l := l') fun t ht => by
      have := hbrace h t ht
      rw [← this]; exact tokenIs_is
    have hseg : Conf c (.cat .interpSegment) (.node .interpSegment [.tok cur, e]) := by conf
    have hhead : ∀ s rest, ss ++ [.node .interpSegment [.tok cur, e]] = s :: rest →
        section? s = some .begin ∧ ∀ x ∈ rest, section? x ≠ some .end_ := by
      intro s rest hsr
      cases ss with
      | nil =>
        obtain ⟨rfl, rfl⟩ := List.cons.inj hsr
        exact ⟨h.empty rfl, nofun⟩
      | cons x xs =>
        obtain ⟨rfl, rfl⟩ := List.cons.inj hsr
        obtain ⟨h1, h2⟩ := h.head _ _ rfl
        refine ⟨h1, fun y hy => ?_⟩
        rcases List.mem_append.1 hy with hy | hy
        · exact h2 y hy
        · rw [List.mem_singleton.1 hy, interpKind_segment, hk]
          simpa using hne
    have hall : AllP (Conf c (.cat .interpSegment)) (ss ++ [.node .interpSegment [.tok cur, e]]) := allP_append.2 ⟨h.conf, allP_one.2 hseg⟩
    split
    · rename_i hend
      have := interpKind_is hend
      csteps
      refine ⟨?_, ?_⟩
      · conf
        cases hx : ss ++ [.node .interpSegment [.tok cur, e]] with
        | nil => simp at hx
        | cons s rest => exact ⟨(hhead s rest hx).1, (hhead s rest hx).2, hend⟩
      · flat
    · rename_i k' hend hk'
      csteps
      refine cwp_mono (ih _ _ _ ⟨hall, ⟨k', hk', fun h => hend h⟩, by simp, hhead⟩) ?_
      rintro v l' ⟨h2, h3⟩
      exact ⟨h2, by rw [← h3]; simp⟩
    · csteps

theorem interpolated_clean (hs : RecC c self) (hl : c.luau = true) {k : InterpKind} {l : List TokRef} {t : TokRef} (ht : Hd l t)
    (hk : interpKind t = some k) : cwp (interpolated self k) l (FQ (PlainC c) l) := by
  have hi := interpKind_is hk
  unfold interpolated expectInterpolated
  csteps
  split
  · csteps
    refine FQ.value ⟨?_, by simp [Plain, kindOf], by simp [callable]⟩ ?_
    · conf; exact hk
    · flat
  · csteps
    refine cwp_mono (interpLoop_clean hs _ _ _ [] ⟨allP_nil.2 trivial, ⟨_, hk, by decide⟩, fun _ => hk, nofun⟩) ?_
    rintro v l' ⟨h2, h3⟩
    csteps
    refine FQ.value ⟨?_, by simp [Plain, kindOf], by simp [callable]⟩ ?_
    · conf
    · simpa using h3
  · csteps

/-! ## Operators -/

/-- An operator token. -/
theorem precedenceOfToken_some {t : TokRef} {n : Nat} (h : BinOp.precedenceOfToken c.feat t = some n) :
    ∃ o : BinOp, t.token.type = .symbol o.symbol ∧ o.level = n ∧ BinOp.ofSymbol c.feat o.symbol = some o := by
  unfold BinOp.precedenceOfToken at h
  split at h
  · rename_i s hs
    cases ho : BinOp.ofSymbol c.feat s with
    | none => simp [ho] at h
    | some o =>
      simp only [ho, Option.map_some, Option.some.injEq] at h
      have := List.find?_some (show BinOp.all.find? _ = some o from ho)
      simp only [Bool.and_eq_true_iff, beq_iff_eq] at this
      refine ⟨o, ?_, h, ?_⟩
      · rw [hs, this.1]
      · rw [this.1, ho]
  · cases h

theorem row_symbol : ∀ o : BinOp, row o.symbol.text + 1 = o.level := by intro o; cases o <;> decide +kernel


theorem display_symbol {t : TokRef} {x : Symbol} (h : t.token.type = .symbol x) : t.token.display = x.text := by
  simp [Token.display, h, TokenType.display]

theorem row_token {t : TokRef} {n : Nat} (h : BinOp.precedenceOfToken c.feat t = some n) : row t.token.display + 1 = n := by
  obtain ⟨o, h1, h2, -⟩ := precedenceOfToken_some h
  rw [display_symbol h1, row_symbol, h2]

theorem rightAssociative_token {t : TokRef} {n : Nat} (h : BinOp.precedenceOfToken c.feat t = some n) :
    rightAssociative t.token.display = BinOp.isRightAssociativeToken t := by
  obtain ⟨o, h1, -, -⟩ := precedenceOfToken_some h
  rw [display_symbol h1, BinOp.isRightAssociativeToken, h1]
  cases o <;> decide +kernel

theorem rightAssociative_level : ∀ o o' : BinOp, o.level = o'.level → rightAssociative o.symbol.text = rightAssociative o'.symbol.text := by
  intro o o'; cases o <;> cases o' <;> decide +kernel

theorem rightAssociative_same {t u : TokRef} {n : Nat} (h : BinOp.precedenceOfToken c.feat t = some n)
    (h' : BinOp.precedenceOfToken c.feat u = some n) : rightAssociative t.token.display = rightAssociative u.token.display := by
  obtain ⟨o, h1, h2, -⟩ := precedenceOfToken_some h
  obtain ⟨o', h1', h2', -⟩ := precedenceOfToken_some h'
  rw [display_symbol h1, display_symbol h1']
  exact rightAssociative_level o o' (h2.trans h2'.symm)

theorem row_ne_unary (op : Text) : row op ≠ unaryRow := by
  have hu : unaryRow = 10 := by decide
  intro h
  rw [hu] at h
  have h1 : row op < manual.length := by rw [h]; decide
  have h2 := List.findIdx_getElem (w := h1)
  have h3 : manual[row op]'h1 = [] := by
    have : manual[10]'(by decide) = [] := rfl
    rw [← this]; congr 1
  have h4 : (manual[row op]'h1).contains op = true := h2
  rw [h3] at h4
  cases h4

theorem accept_spec {t : TokRef} {o : BinOp} (h : BinOp.accept c t = some o) : is o.symbol t = true ∧ available c (.binOp o) = true := by
  unfold BinOp.accept at h
  split at h
  · rename_i s hs
    split at h
    · rename_i o' ho
      split at h
      · rename_i hg
        cases h
        have := List.find?_some (show BinOp.all.find? _ = some o from ho)
        simp only [Bool.and_eq_true_iff, beq_iff_eq] at this
        exact ⟨is_iff.2 (by rw [hs, this.1]), hg⟩
      · cases h
    · cases h
  · cases h

theorem leftEdge_of_kind {n : Node} (h : kindOf n ≠ some .exprBinary) : leftEdge n = [] := by
  unfold leftEdge
  split
  · exact absurd rfl h
  · rfl

theorem rightEdge_of_kind {n : Node} (h : kindOf n ≠ some .exprBinary) (h' : kindOf n ≠ some .exprUnary) (h'' : kindOf n ≠ some .exprIf) :
    rightEdge n = [] := by
  unfold rightEdge
  split
  · exact absurd rfl h
  · exact absurd rfl h'
  · exact absurd rfl h''
  · rfl


theorem Plain.settled {n : Node} (h : Plain n) {l : List TokRef} : Settled c n l := by
  intro t _ _ x hx
  rw [rightEdge_of_kind h.1 h.2.1 h.2.2.1] at hx
  cases hx

section
variable {K : Node → List TokRef → Prop}

theorem PQ.value {l l' : List TokRef} {v : Node} (h : Conf c .expr v) (hl : l = v.flat ++ l') (hs : Settled c v l')
    (hp : K v l') (he : leftEdge v = []) : PQ K c l (.value v) l' := ⟨⟨h, hl⟩, fun _ h => by cases h; exact ⟨hs, hp, he⟩⟩
theorem PQ.notFound {l : List TokRef} : PQ K c l .notFound l := ⟨rfl, nofun⟩
theorem PQ.plain {l l' : List TokRef} {v : Node} (h : Conf c .expr v) (hl : l = v.flat ++ l') (hp : Plain v)
    (hc : K v l') : PQ K c l (.value v) l' := .value h hl hp.settled hc (leftEdge_of_kind hp.1)
end

theorem Calm0.of {v : Node} {l : List TokRef} (h : Plain v) (h' : callable v = true → NoParen l) : Calm0 c v l := by
  obtain ⟨h1, h2, h3, h4⟩ := h
  cases v with
  | tok t => exact ⟨rfl, h', fun _ => nofun, fun _ => by simp [Typed, lastType]⟩
  | node k cs =>
    simp only [kindOf, ne_eq, Option.some.injEq] at h1 h2 h3 h4
    refine ⟨?_, h', fun _ h => ?_, fun _ => ?_⟩
    · simp [isOne, kindOf, List.contains_cons, h1, h4]
    · unfold innerAsserts at h
      split at h
      · rename_i e; cases e; exact absurd rfl h2
      · rename_i e; cases e; exact absurd rfl h3
      · cases h
    · intro t ht
      unfold lastType at ht
      split at ht
      · rename_i e; cases e; exact absurd rfl h4
      · rename_i e; cases e; exact absurd rfl h1
      · rename_i e; cases e; exact absurd rfl h2
      · rename_i e; cases e; exact absurd rfl h3
      · cases ht

theorem Calm0.none {v : Node} {l : List TokRef} (hp : Plain v) (h : callable v = false) : Calm0 c v l := .of hp fun h' => by rw [h] at h'; cases h'

theorem FQ.plain {l l' : List TokRef} {r : Res Node} (h : FQ (PlainC c) l r l') : PQ (Calm0 c) c l r l' := by
  cases r with
  | value v => exact .plain h.1.1 h.2 h.1.2.1 (.none h.1.2.1 h.1.2.2)
  | moved => exact h.elim
  | notFound => exact h.elim

theorem cwp_primary {K : Node → List TokRef → Prop} {p : M (Res Node)} {l : List TokRef} {Q : Res Node → List TokRef → Prop}
    (h : cwp p l (PQ K c l)) (h1 : ∀ v l', Conf c .expr v → l = v.flat ++ l' → Settled c v l' → K v l' → leftEdge v = [] → Q (.value v) l') (h2 : Q .notFound l) :
    cwp p l Q := by
  refine cwp_mono h fun r l' hr => ?_
  obtain ⟨hr, hn⟩ := hr
  cases r with
  | value v => exact h1 v l' hr.1 hr.2 (hn v rfl).1 (hn v rfl).2.1 (hn v rfl).2.2
  | moved => exact hr.elim
  | notFound => obtain rfl : l' = l := hr; exact h2

macro_rules | `(tactic| cspec) => `(tactic| (cwp_head Rec.primary; refine cwp_primary (RecC.primary (by assumption) _) (fun _ _ _ _ _ _ _ => ?_) ?_))

theorem cwp_climb {p : M (Res Node)} {e : Node} {n : Nat} {l : List TokRef} {Q : Res Node → List TokRef → Prop} (h : cwp p l (CQ c e n l))
    (h1 : ∀ v l', Conf c .expr v → e.flat ++ l = v.flat ++ l' → Settled c v l' → Calm c v l' →
      (∀ t k, Hd l' t → BinOp.precedenceOfToken c.feat t = some k → k < n) →
      (∀ o ∈ leftEdge v, o ∈ leftEdge e ∨ n ≤ row o + 1) → Q (.value v) l') : cwp p l Q := by
  refine cwp_mono h ?_
  rintro r l' ⟨v, rfl, h2, h3, h4, h5, h6, h7⟩
  exact h1 v l' h2 h3 h4 h5 h6 h7

theorem unaryOp_spec {t : TokRef} {o : UnOp} (h : unaryOp c t = some o) : is (unarySymbol o) t = true ∧ available c (.unOp o) = true := by
  unfold unaryOp at h
  split at h
  · cases h; exact ⟨‹_›, rfl⟩
  · split at h
    · cases h; exact ⟨‹_›, rfl⟩
    · split at h
      · cases h; exact ⟨‹_›, rfl⟩
      · split at h
        · rename_i h'; cases h; rw [Bool.and_eq_true_iff] at h'; exact ⟨h'.2, h'.1⟩
        · cases h

theorem parseUnary_clean (hs : RecC c self) {t : TokRef} (l : List TokRef) : cwp (parseUnary self c t) l fun r l' =>
    ∃ v, r = .value v ∧ Conf c .expr v ∧ t :: l = v.flat ++ l' ∧ Settled c v l' ∧ Calm0 c v l' ∧ leftEdge v = [] := by
  unfold parseUnary
  split
  · exact cwp_panic
  · rename_i o ho
    obtain ⟨h1, h2⟩ := unaryOp_spec ho
    csteps
    rename_i e l' he hset hcalm hedge
    refine cwp_climb (hs.climb _ _ _ he hset hcalm) fun v l'' h3 h4 h5 hcalm' h6 h7 => cwp_pure ?_
    refine ⟨_, rfl, ?_, ?_, ?_, ?_, ?_⟩
    · conf
      intro p hp
      have h8 := h7 p hp
      rw [hedge] at h8
      have h9 := row_ne_unary p
      have hu : unaryRow = 10 := by decide
      simp only [UnOp.precedence] at h8
      rcases h8 with h8 | h8
      · cases h8
      · omega
    · simp [h4]
    · intro u hu hp x hx
      rw [show rightEdge (.node .exprUnary [.node (.unOp o) [.tok t], v]) = .unary :: rightEdge v from by rw [rightEdge]] at hx
      rcases List.mem_cons.1 hx with rfl | hx
      · obtain ⟨n, hn⟩ := Option.ne_none_iff_exists'.1 hp
        have h8 := h6 u n hu hn
        have h9 := row_token hn
        have hu : unaryRow = 10 := by decide
        simp only [UnOp.precedence] at h8
        show row _ < unaryRow
        omega
      · exact h5 u hu hp x hx
    · exact ⟨rfl, fun h => hcalm'.paren (by simpa only [callable] using h), fun hl h => hcalm'.colons hl h,
        fun hl t ht => hcalm'.typed hl t (by simpa only [lastType] using ht)⟩
    · exact leftEdge_of_kind (by simp [kindOf])

theorem prefixExpression_clean (hs : RecC c self) (l : List TokRef) : cwp (prefixExpression self c) l (PQ (Calm0 c) c l) := by
  unfold prefixExpression
  csteps
  rename_i p l' h hn
  have hpl : Plain (prefixExprNode p.1 p.2) := ?_
  · exact .plain (prefixExprNode_conf h.1 h.2) (by rw [prefixExprNode_flat]; rfl) hpl (.of hpl fun _ => hn)
  unfold prefixExprNode
  obtain ⟨p, ss⟩ := p
  dsimp only
  split
  · have h2 : kindOf _ = _ := h.1.2
    rw [Plain, h2]
    exact ⟨by decide, by decide, by decide, by decide⟩
  · simp [Plain, kindOf]
  · split <;> simp [Plain, kindOf]


theorem primaryBase_clean (hs : RecC c self) (l : List TokRef) : cwp (primaryBase self c) l (PQ (Calm0 c) c l) := by
  unfold primaryBase
  csteps
  · rename_i h
    rw [Bool.and_eq_true_iff] at h
    exact cwp_mono (attributedFunction_clean hs h.1 _) fun r l' h => FQ.plain h
  · exact cwp_mono (anonymousFunction_clean hs (allP_nil.2 trivial) ‹_› ‹_›) fun r l' h => FQ.plain h
  · rename_i t _ _ h _ _
    have h : (Term.sym [.kTrue, .kFalse, .kNil, .ellipsis]).Is t := by
      simp only [Bool.or_eq_true_iff, is_iff] at h
      simpa [Term.Is, or_assoc] using h
    refine .plain ?_ (by simp) (by simp [Plain, kindOf]) (.none (by simp [Plain, kindOf]) (by simp [callable]))
    conf
  · refine .plain ?_ (by simp) (by simp [Plain, kindOf]) (.none (by simp [Plain, kindOf]) (by simp [callable]))
    conf
  · refine .plain ?_ (by simp) (by simp [Plain, kindOf]) (.none (by simp [Plain, kindOf]) (by simp [callable]))
    conf
  · exact prefixExpression_clean hs _
  · refine cwp_mono (parseUnary_clean hs _) ?_
    rintro r l' ⟨v, rfl, h1, h2, h3, h4, h5⟩
    exact .value h1 h2 h3 h4 h5
  · refine cwp_tableConstructor hs ‹_› fun v l' h1 h2 => cwp_pure (.plain ?_ ?_ (by simp [Plain, kindOf]) (.none (by simp [Plain, kindOf]) (by simp [callable])))
    · conf
    · simpa using h2
  · rename_i h _ _
    rw [Bool.and_eq_true_iff] at h
    obtain ⟨hl, ht⟩ := h
    refine cwp_ifElse hs ht fun v l' h1 h2 h3 h4 => cwp_pure (.value ?_ ?_ ?_ h4 ?_)
    · conf
    · simpa using h2
    · intro t ht h; exact absurd (h3 t ht) h
    · exact leftEdge_of_kind (by simp [kindOf])
  · split
    · rename_i k hk
      csteps
      · rename_i hl
        exact cwp_mono (interpolated_clean hs hl ‹_› hk) fun r l' h => FQ.plain h
      · exact .notFound
    · csteps; exact .notFound

/-- The right operand of `op`, so far. -/
structure RhsC (c : Cfg) (op : TokRef) (rhs : Node) (l : List TokRef) : Prop where
  conf : Conf c .expr rhs
  settled : Settled c rhs l
  calm : Calm c rhs l
  left : ∀ q ∈ leftEdge rhs, keepsRight op.token.display q

theorem rhsLoop_clean (hs : RecC c self) {level : Nat} {op : TokRef} (hop : BinOp.precedenceOfToken c.feat op = some level) :
    ∀ (m : Nat) (l : List TokRef) (rhs : Node), RhsC c op rhs l → cwp (rhsLoop self c level op m rhs) l fun r l' =>
      ∃ v, r = some v ∧ RhsC c op v l' ∧ rhs.flat ++ l = v.flat ++ l' ∧
        ∀ t, Hd l' t → BinOp.precedenceOfToken c.feat t ≠ none → keepsLeft t.token.display (.binary op.token.display)
  | 0, _, _, _ => cwp_diverge
  | m + 1, l, rhs, h => by
    have ih := rhsLoop_clean hs hop m
    have hrow := row_token hop
    unfold rhsLoop
    csteps
    rename_i t ht
    split
    · rename_i hn
      refine cwp_pure ⟨rhs, rfl, h, rfl, ?_⟩
      intro u hu hp
      cases hu.inj ht
      exact absurd hn hp
    · rename_i next hn
      have hrow' := row_token hn
      refine cwp_ite (fun hlt => ?_) fun hlt => ?_
      · refine cwp_bind (cwp_climb (hs.climb _ _ _ h.conf h.settled h.calm) fun v l' h1 h2 h3 h3' h4 h5 => ?_)
        refine cwp_mono (ih _ _ ⟨h1, h3, h3', ?_⟩) ?_
        · intro q hq
          rcases h5 q hq with h6 | h6
          · exact h.left q h6
          · unfold keepsRight
            split at h6
            · left; omega
            · rename_i hnlt
              simp only [Bool.or_eq_true_iff, Bool.and_eq_true_iff, decide_eq_true_eq, beq_iff_eq, hnlt, false_or] at hlt
              obtain ⟨ha, rfl⟩ := hlt
              rw [← rightAssociative_token hn, rightAssociative_same hn hop] at ha
              have : row op.token.display ≤ row q := by omega
              rcases Nat.lt_or_eq_of_le this with h7 | h7
              · exact .inl h7
              · exact .inr ⟨h7, ha⟩
        · rintro r l' ⟨w, rfl, h6, h7, h8⟩
          exact ⟨w, rfl, h6, h2.trans h7, h8⟩
      · refine cwp_pure ⟨rhs, rfl, h, rfl, ?_⟩
        intro u hu _
        cases hu.inj ht
        simp only [Bool.or_eq_true_iff, Bool.and_eq_true_iff, decide_eq_true_eq, beq_iff_eq, not_or, not_and] at hlt
        show _ ∨ _
        rw [rightAssociative_token hn]
        have h1 : row t.token.display ≤ row op.token.display := by omega
        rcases Nat.lt_or_eq_of_le h1 with h7 | h7
        · exact .inl h7
        · refine .inr ⟨h7, Bool.eq_false_iff.2 fun ha => hlt.2 ha (by omega)⟩

/-- An operator is known by its text. -/
theorem is_text {o : BinOp} {t : TokRef} {s : Symbol} (h : is o.symbol t = true) (ht : t.token.display = s.text) : is s t = true := by
  rw [is_iff] at h ⊢
  rw [display_symbol h] at ht
  rw [h]
  exact congrArg _ (Symbol.text_inj ht)

theorem climbLoop_clean (hs : RecC c self) {p : Nat} : ∀ (m : Nat) (l : List TokRef) (lhs : Node), Conf c .expr lhs → Settled c lhs l → Calm c lhs l →
    cwp (climbLoop self c p m lhs) l (CQ c lhs p l)
  | 0, _, _, _, _, _ => cwp_diverge
  | m + 1, l, lhs, h, hset, hcalm => by
    have ih := climbLoop_clean hs (p := p) m
    unfold climbLoop
    csteps
    rename_i t ht
    split
    · rename_i hn
      refine cwp_pure ⟨lhs, rfl, h, rfl, hset, hcalm, ?_, fun o ho => .inl ho⟩
      intro u n hu hp
      cases hu.inj ht
      rw [hn] at hp; cases hp
    · rename_i level hn
      have hrow := row_token hn
      refine cwp_ite (fun hlt => ?_) fun hlt => ?_
      · refine cwp_pure ⟨lhs, rfl, h, rfl, hset, hcalm, ?_, fun o ho => .inl ho⟩
        intro u n hu hp
        cases hu.inj ht
        rw [hn] at hp; cases hp; exact hlt
      · split
        · exact cwp_panic
        · rename_i o ho
          obtain ⟨ho1, ho2⟩ := accept_spec ho
          csteps
          rename_i rest e l' he hse hce hle _
          refine cwp_mono (rhsLoop_clean hs hn _ _ _ ⟨he, hse, hce, by simp [hle]⟩) ?_
          rintro r l'' ⟨v, rfl, h1, h2, h3⟩
          have h4 := h1.conf
          have htext : opText (.node (.binOp o) [.tok t]) = t.token.display := by simp [opText]
          refine cwp_mono (ih _ _ ?_ ?_ ?_) ?_
          · conf
            refine ⟨?_, ?_⟩
            · rw [Connected, htext]
              refine ⟨fun x hx => hset t ht (by simp [hn]) x hx, h1.left⟩
            · intro hl ty hty
              obtain ⟨h5, h6⟩ := hcalm.typed hl ty hty
              obtain ⟨-, h7, h8⟩ := h5 t ht
              rw [htext]
              refine ⟨fun h => ?_, fun h => ?_, fun h => ?_⟩
              · rw [is_text (s := .pipe) ho1 h] at h7; cases h7
              · rw [is_text (s := .ampersand) ho1 h] at h8; cases h8
              · cases he : endsName ty with
                | false => rfl
                | true => have := h6 he t ht; rw [is_text (s := .lessThan) ho1 h] at this; cases this
          · intro u hu hp x hx
            rw [show rightEdge (.node .exprBinary [lhs, .node (.binOp o) [.tok t], v]) =
              .binary (opText (.node (.binOp o) [.tok t])) :: rightEdge v from by rw [rightEdge], htext] at hx
            rcases List.mem_cons.1 hx with rfl | hx
            · exact h3 u hu hp
            · exact h1.settled u hu hp x hx
          · exact ⟨fun h => h1.calm.paren (by simpa only [callable] using h), fun hl h => h1.calm.colons hl (by simpa only [asserts] using h),
              fun hl t ht => h1.calm.typed hl t (by simpa only [lastType] using ht)⟩
          · rintro r l3 ⟨w, rfl, h5, h6, h7, h7', h8, h9⟩
            refine ⟨w, rfl, h5, ?_, h7, h7', h8, ?_⟩
            · rw [← h6]; simp [h2]
            · intro x hx
              rcases h9 x hx with h10 | h10
              · rw [show leftEdge (.node .exprBinary [lhs, .node (.binOp o) [.tok t], v]) =
                  opText (.node (.binOp o) [.tok t]) :: leftEdge lhs from by rw [leftEdge], htext] at h10
                rcases List.mem_cons.1 h10 with rfl | h10
                · right; omega
                · exact .inl h10
              · exact .inr h10

theorem parseClimb_clean (hs : RecC c self) {p : Nat} (l : List TokRef) (lhs : Node) (h : Conf c .expr lhs) (hset : Settled c lhs l)
    (hcalm : Calm c lhs l) : cwp (parseClimb self c lhs p) l (CQ c lhs p l) := by
  unfold parseClimb
  csteps
  exact climbLoop_clean hs _ _ _ h hset hcalm

theorem parsePrimary_clean (hs : RecC c self) (l : List TokRef) : cwp (parsePrimary self c) l (PQ (Calm c) c l) := by
  unfold parsePrimary
  refine cwp_bind (cwp_primary (primaryBase_clean hs l) (fun v l' h1 h2 h3 h4 h5 => ?_) ?_)
  · subst h2
    csteps
    · have h6 := h4.kind
      have h7 : innerAsserts v = false := by
        cases hi : innerAsserts v with
        | false => rfl
        | true => exact absurd (h4.colons ‹_› hi _ rfl) (by simpa using ‹_›)
      have hst := Ended.stop ‹Ended _ _› ‹_›
      have hna := (‹Ended _ _› : Ended _ _).named
      refine .value ?_ ?_ ?_ ⟨by simp [callable], fun _ h => by simp [asserts] at h, ?_⟩ (leftEdge_of_kind (by simp [kindOf]))
      · conf
      · flat
      · intro t _ _ x hx
        rw [rightEdge_of_kind (by simp [kindOf]) (by simp [kindOf]) (by simp [kindOf])] at hx
        cases hx
      · intro _ t ht
        simp only [lastType, Option.some.injEq] at ht
        subst ht
        exact ⟨hst, hna⟩
    · refine .value h1 rfl h3 ⟨h4.paren, fun _ _ => Hd.all (P := is .twoColons) ‹_› (by simpa using ‹_›), h4.typed⟩ h5
    · refine .value h1 rfl h3 ⟨h4.paren, fun h => absurd h ‹_›, h4.typed⟩ h5
  · csteps; exact .notFound

theorem parseExpression_clean (hs : RecC c self) (l : List TokRef) : cwp (parseExpression self c) l (EQ c l) := by
  unfold parseExpression
  refine cwp_bind (cwp_primary (parsePrimary_clean hs l) (fun v l' h1 h2 h3 h3' h4 => ?_) ?_)
  · subst h2
    refine cwp_climb (parseClimb_clean hs _ _ h1 h3 h3') fun w l'' h5 h6 h7 h7' h8 h9 => ?_
    refine ⟨⟨h5, h6⟩, fun _ he => ⟨fun t ht => ?_, by cases he; exact h7'⟩⟩
    cases hp : BinOp.precedenceOfToken c.feat t with
    | none => rfl
    | some n => exact absurd (h8 t n ht hp) (by omega)
  · csteps; exact ⟨rfl, nofun⟩

end FM.Parser.Clean
