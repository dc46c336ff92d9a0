import Verif.Proofs.Parser.Types

/-! Helper lemmas: tables, prefixes and suffixes (Model/Parser/Expr). -/

namespace FM.Parser
open FM.Spec

variable {c : Cfg} {K : TokRef → Prop} {α β : Type} {self : Rec} {n : Nat}

/-! ## Blocks that end with `end` -/

theorem wp_block (hs : RecOk c K n self) {ts : Toks} (hn : ts.length ≤ n) {Q : Res Blk → Toks → Prop}
    (h1 : ∀ b ts', ts'.length ≤ ts.length → BlkTy c K b → Q (.value b) ts')
    (h2 : ∀ ts', ts'.length < ts.length → Q .moved ts') : wp c K self.block ts Q := by
  refine wp_mono (hs.block ts hn) fun r ts' hl hr => ?_
  cases r with
  | value b => exact h1 b ts' hl (hr.1 b rfl).1
  | moved => exact h2 ts' (hr.2.2 rfl)
  | notFound => exact absurd rfl hr.2.1

macro_rules | `(tactic| wspec) => `(tactic| (wp_head Rec.block; refine wp_block (by assumption) (by omega) (fun _ _ _ _ => ?_) (fun _ _ => ?_)))

theorem wp_blockRange {b : Blk} (hb : BlkTy c K b) {start : TokRef} (hk : K start) {ts : Toks} {Q : TokRef × TokRef → Toks → Prop}
    (h : ∀ t, K t.1 → K t.2 → Q t ts) : wp c K (blockRange b start) ts Q := by
  unfold blockRange
  split
  · rename_i s hs
    exact wp_nodeRange (tokens_ne _ _ rfl (hb.2 s hs).1.1) ⟨_, (hb.2 s hs).1.1⟩ h
  · split
    · rename_i s hs
      exact wp_nodeRange (tokens_ne _ _ rfl (hb.1 s (List.mem_of_getLast? hs)).1.1) ⟨_, (hb.1 s (List.mem_of_getLast? hs)).1.1⟩ h
    · exact wp_pure (h _ hk hk)

macro_rules | `(tactic| wspec) => `(tactic| (wp_head blockRange; refine wp_blockRange (by assumption) (by assumption) (fun _ _ _ => ?_)))

theorem wp_lastExpr {e : Node} (he : WellTy c K (.cat .expr) e) {ts : Toks} {Q : TokRef → Toks → Prop}
    (h : ∀ t, K t → Q t ts) : wp c K (lastToken e) ts Q := wp_lastToken (tokens_ne _ _ rfl he.1) ⟨_, he.1⟩ h

macro_rules | `(tactic| wspec) => `(tactic| (wp_head lastToken; refine wp_lastExpr (by assumption) (fun _ _ => ?_)))

/-- Shows that a range has no effect and lies between known tokens. -/
macro "wrange" : tactic => `(tactic| first
  | exact wp_pure ⟨rfl, by assumption, by assumption⟩
  | exact wp_bind (wp_lastExpr (by assumption) (fun _ _ => wp_pure ⟨rfl, by assumption, by assumption⟩)))

macro_rules | `(tactic| wspec) => `(tactic| (wp_head requireWithRange; refine wp_requireWithRange (by wrange) (fun _ _ _ _ _ => ?_) ?_))

theorem expectBlockWithEnd_spec [Phantoms c K] (hs : RecOk c K n self) {name : String} {start : TokRef} (hk : K start) {ts : Toks} (hn : ts.length ≤ n) :
    wp c K (expectBlockWithEnd self c name start) ts (OptQ fun p => BlkTy c K p.1 ∧ K p.2 ∧ is .kEnd p.2 = true) := by
  unfold expectBlockWithEnd
  wsteps
  all_goals wfin

theorem wp_blockWithEnd [Phantoms c K] (hs : RecOk c K n self) {name : String} {start : TokRef} (hk : K start) {ts : Toks} (hn : ts.length ≤ n)
    {Q : Option (Blk × TokRef) → Toks → Prop}
    (h1 : ∀ b t ts', ts'.length ≤ ts.length → BlkTy c K b → K t → is .kEnd t = true → Q (some (b, t)) ts')
    (h2 : ∀ ts', ts'.length ≤ ts.length → Q none ts') : wp c K (expectBlockWithEnd self c name start) ts Q :=
  wp_opt (expectBlockWithEnd_spec hs hk hn) (fun v ts' hl hv => h1 v.1 v.2 ts' hl hv.1 hv.2.1 hv.2.2) h2

macro_rules | `(tactic| wspec) => `(tactic| (wp_head expectBlockWithEnd; refine wp_blockWithEnd (by assumption) (by assumption) (by omega) (fun _ _ _ _ _ _ _ => ?_) (fun _ _ => ?_)))

/-! ## Tables -/

theorem expectExpressionKey_spec (hs : RecOk c K n self) {left : TokRef} (hk : K left) (hi : is .leftBracket left = true) {ts : Toks} (hn : ts.length ≤ n) :
    wp c K (expectExpressionKey self left) ts (OptQ (WellTy c K (.cat .field))) := by
  unfold expectExpressionKey
  wsteps
  all_goals wfin

macro_rules | `(tactic| wspec) => `(tactic| (wp_head expectExpressionKey; refine wp_opt (expectExpressionKey_spec (by assumption) (by assumption) (by assumption) (by omega)) (fun _ _ _ _ => ?_) (fun _ _ => ?_)))

/-- A field of a table, or its end, is well typed. -/
def CtorRes.Ok (c : Cfg) (K : TokRef → Prop) : CtorRes → Prop
  | .field f => WellTy c K (.cat .field) f
  | .done t => K t ∧ is .rightBrace t = true
  | .unfinished => True

/-- Closes a goal about `CtorRes.Ok`. -/
macro "cfin" : tactic => `(tactic| first
  | trivial
  | (unfold CtorRes.Ok; wty))

theorem nameKeyField_spec (hs : RecOk c K n self) {ts : Toks} (hn : ts.length ≤ n + 1) {t u : TokRef} (ht : Head ts t)
    (hi : t.isIdent = true) (hu : Head ts.tail u) (he : is .equal u = true) :
    wp c K (nameKeyField self) ts (fun r _ => r.Ok c K) := by
  unfold nameKeyField
  wsteps
  all_goals cfin

theorem setField_spec (hx : c.feat.cfxlua = true) {ts : Toks} {t : TokRef} (ht : Head ts t) (hi : is .dot t = true) :
    wp c K setField ts (fun r _ => r.Ok c K) := by
  unfold setField
  wsteps
  all_goals cfin

theorem wp_fieldErrorToken {left : TokRef} (hk : K left) {f : Punctuated Node} (hf : PAll K [.comma, .semicolon] (WellTy c K (.cat .field)) f) {ts : Toks}
    {Q : TokRef → Toks → Prop} (h : ∀ t, K t → Q t ts) : wp c K (fieldErrorToken left f) ts Q := by
  unfold fieldErrorToken
  split
  · rename_i p hp
    have := (hf p (List.mem_of_getLast? hp)).1
    exact wp_lastToken (tokens_ne _ _ rfl this.1) ⟨_, this.1⟩ h
  · exact wp_pure (h _ hk)

macro_rules | `(tactic| wspec) => `(tactic| (wp_head fieldErrorToken; refine wp_fieldErrorToken (by assumption) (by assumption) (fun _ _ => ?_)))

theorem noKeyField_spec (hs : RecOk c K n self) {left : TokRef} (hk : K left) {f : Punctuated Node}
    (hf : PAll K [.comma, .semicolon] (WellTy c K (.cat .field)) f) {ts : Toks} (hn : ts.length ≤ n) :
    wp c K (noKeyField self left f) ts (fun r _ => r.Ok c K) := by
  unfold noKeyField
  wsteps
  all_goals cfin

theorem ctorField_spec (hs : RecOk c K n self) {left : TokRef} (hk : K left) {f : Punctuated Node}
    (hf : PAll K [.comma, .semicolon] (WellTy c K (.cat .field)) f) {ts : Toks} (hn : ts.length ≤ n) :
    wp c K (ctorField self c left f) ts (fun r _ => r.Ok c K) := by
  unfold ctorField
  wsteps
  all_goals first
    | cfin
    | exact nameKeyField_spec hs (by omega) ‹_› ‹_› ‹_› ‹_›
    | exact noKeyField_spec hs hk hf hn
    | exact setField_spec (Bool.and_eq_true_iff.1 ‹_›).1 ‹_› (Bool.and_eq_true_iff.1 ‹_›).2

theorem ctorLoop_spec [Phantoms c K] (hs : RecOk c K n self) {left : TokRef} (hk : K left) (hi : is .leftBrace left = true) : ∀ (m : Nat) (ts : Toks) (f : Punctuated Node),
    ts.length < m → ts.length ≤ n → PAll K [.comma, .semicolon] (WellTy c K (.cat .field)) f →
    wp c K (ctorLoop self c left m f) ts (fun r _ => WellTy c K (.cat .tableCtor) r)
  | 0, _, _, hm, _, _ => by omega
  | m + 1, ts, f, hm, hn, hf => by
    have ih := ctorLoop_spec hs hk hi m
    unfold ctorLoop
    refine wp_bind (wp_mono (ctorField_spec hs hk hf hn) fun r ts' hl hr => ?_)
    cases r <;> wsteps
    · exact ih _ _ (by omega) (by omega) (hf.push_punct hr ‹_› (by sep))
    · have := hf.push_end hr; wty
    · have := hf.push_end hr; wty
    · have := hf.push_end hr; wty
    · have := hf.push_end hr; wty
    · replace hr : K _ ∧ is _ _ = true := hr
      wty
    · wty

theorem wp_tableCtor [Phantoms c K] (hs : RecOk c K n self) {left : TokRef} (hk : K left) (hi : is .leftBrace left = true) {ts : Toks} (hn : ts.length ≤ n)
    {Q : Node → Toks → Prop} (h : ∀ v ts', ts'.length ≤ ts.length → WellTy c K (.cat .tableCtor) v → Q v ts') :
    wp c K (forceTableConstructor self c left) ts Q := by
  unfold forceTableConstructor
  wsteps
  exact wp_mono (ctorLoop_spec hs hk hi _ _ _ (by omega) hn .new) h

macro_rules | `(tactic| wspec) => `(tactic| (wp_head forceTableConstructor; refine wp_tableCtor (by assumption) (by assumption) (by assumption) (by omega) (fun _ _ _ _ => ?_)))

/-! ## Prefixes and suffixes -/

/-- A prefix is well typed. -/
def Pre.Ok (c : Cfg) (K : TokRef → Prop) : Pre → Prop
  | .expr e => WellTy c K (.cat .expr) e
  | .name t => K t ∧ t.isIdent = true

theorem Pre.Ok.node {p : Pre} (h : p.Ok c K) : WellTy c K (.cat .prefix) p.node := by
  cases p with
  | expr e => replace h : WellTy c K _ _ := h; unfold Pre.node; ty_simp
  | name t => replace h : K _ ∧ _ = true := h; unfold Pre.node; ty_simp

/-- The current token starts a prefix. -/
def startsPrefix (t : TokRef) : Bool := is .leftParen t || t.isIdent

theorem wp_parsePrefix [Phantoms c K] (hs : RecOk c K n self) {ts : Toks} (hn : ts.length ≤ n + 1) {Q : Res Pre → Toks → Prop}
    (h1 : ∀ p ts', ts'.length < ts.length → p.Ok c K → Q (.value p) ts')
    (h2 : ∀ ts', ts'.length < ts.length → Q .moved ts')
    (h3 : (∀ t, Head ts t → startsPrefix t = false) → Q .notFound ts) : wp c K (parsePrefix self c) ts Q := by
  unfold parsePrefix
  wsteps
  · refine h1 _ _ (by omega) ?_; unfold Pre.Ok; wty
  · refine h1 _ _ (by omega) ?_; unfold Pre.Ok; wty
  · exact h2 _ (by omega)
  · exact h2 _ (by omega)
  · exact h1 _ _ (by omega) ⟨‹_›, ‹_›⟩
  · rename_i t ht _ h1 h2
    exact h3 fun u hu => by rw [← ht.inj hu]; simp [startsPrefix, h1, h2]
  · rename_i h; exact h3 fun u hu => absurd hu (h u)

macro_rules | `(tactic| wspec) => `(tactic| (wp_head parsePrefix; refine wp_parsePrefix (by assumption) (by omega) (fun _ _ _ _ => ?_) (fun _ _ => ?_) (fun _ => ?_)))

theorem wp_expressionList (hs : RecOk c K n self) {ts : Toks} (hn : ts.length ≤ n) {Q : Res (Punctuated Node) → Toks → Prop}
    (h1 : ∀ l ts', ts'.length < ts.length → PAll K [.comma] (WellTy c K (.cat .expr)) l → l.pairs ≠ [] → NoTrail l → Q (.value l) ts')
    (h2 : ∀ ts', ts'.length ≤ ts.length → Q .notFound ts') : wp c K (parseExpressionList self) ts Q :=
  wp_oneOrMore (N := True) hs.expr hn (wp_mono (hs.expr ts hn) fun _ _ _ h => ⟨h, fun _ => trivial⟩) h1 fun ts' hl _ => h2 ts' hl

macro_rules | `(tactic| wspec) => `(tactic| (wp_head parseExpressionList; refine wp_expressionList (by assumption) (by omega) (fun _ _ _ _ _ _ => ?_) (fun _ _ => ?_)))

theorem wp_closeArguments [Phantoms c K] {left : TokRef} (hk : K left) (hi : is .leftParen left = true)
    {l : Punctuated Node} (hl : PAll K [.comma] (WellTy c K (.cat .expr)) l) {ts : Toks}
    {Q : Res Node → Toks → Prop} (h : ∀ v ts', ts'.length ≤ ts.length → WellTy c K (.cat .args) v → Q (.value v) ts') :
    wp c K (closeArguments c left l) ts Q := by
  unfold closeArguments
  wsteps
  all_goals
    refine h _ _ (by omega) ?_
    ty_simp

theorem wp_emptyArgs [Phantoms c K] {ts : Toks} {Q : Node → Toks → Prop} (h : ∀ v, WellTy c K (.cat .args) v → Q v ts) :
    wp c K (emptyArgs c) ts Q := by
  have := PAll.new (K := K) (seps := [.comma]) (P := WellTy c K (.cat .expr))
  unfold emptyArgs
  wsteps
  refine h _ ?_
  ty_simp

macro_rules | `(tactic| wspec) => `(tactic| (wp_head emptyArgs; refine wp_emptyArgs (fun _ _ => ?_)))

/-- The current token starts arguments. -/
def startsArgs (t : TokRef) : Bool := is .leftParen t || is .leftBrace t || t.isString

theorem wp_parseArguments [Phantoms c K] (hs : RecOk c K n self) {ts : Toks} (hn : ts.length ≤ n + 1) {Q : Res Node → Toks → Prop}
    (h1 : ∀ v ts', ts'.length < ts.length → WellTy c K (.cat .args) v → Q (.value v) ts')
    (h3 : (∀ t, Head ts t → startsArgs t = false) → Q .notFound ts) : wp c K (parseArguments self c) ts Q := by
  unfold parseArguments
  wsteps
  · exact wp_closeArguments ‹_› ‹_› ‹_› fun v ts' hl hv => h1 v ts' (by omega) hv
  · exact wp_closeArguments ‹_› ‹_› .new fun v ts' hl hv => h1 v ts' (by omega) hv
  · refine h1 _ _ (by omega) ?_; ty_simp
  · refine h1 _ _ (by omega) ?_; ty_simp
  · rename_i t ht _ h1 h2 h4
    exact h3 fun u hu => by rw [← ht.inj hu]; simp [startsArgs, h1, h2, h4]
  · rename_i h; exact h3 fun u hu => absurd hu (h u)

macro_rules | `(tactic| wspec) => `(tactic| (wp_head parseArguments; refine wp_parseArguments (by assumption) (by omega) (fun _ _ _ _ => ?_) (fun _ => ?_)))

theorem dotSuffix_spec {msg : String} {ts : Toks} {t : TokRef} (ht : Head ts t) (he : t.isEof = false)
    (hi : Term.Is (.sym (if c.feat.cfxlua then [.dot, .questionMarkDot] else [.dot])) t) :
    wp c K (dotSuffix msg) ts (ResQ (WellTy c K (.cat .suffix)) ts) := by
  unfold dotSuffix
  wsteps
  all_goals wfin

theorem bracketSuffix_spec [Phantoms c K] (hs : RecOk c K n self) {ts : Toks} (hn : ts.length ≤ n + 1) {t : TokRef} (ht : Head ts t)
    (hi : is .leftBracket t = true) : wp c K (bracketSuffix self c) ts (ResQ (WellTy c K (.cat .suffix)) ts) := by
  unfold bracketSuffix
  wsteps
  all_goals wfin

theorem methodTypes_spec (hs : RecOk c K n self) {ts : Toks} (hn : ts.length ≤ n + 1) :
    wp c K (methodTypes self c) ts (OptQ (OptP (WellTy c K (.cat .typeInst)))) := by
  unfold methodTypes
  wsteps
  all_goals first
    | exact OptQ.none
    | (refine OptQ.some ?_; simp [optP_none, optP_some, *])

macro_rules | `(tactic| wspec) => `(tactic| (wp_head methodTypes; refine wp_opt (methodTypes_spec (by assumption) (by omega)) (fun _ _ _ _ => ?_) (fun _ _ => ?_)))

theorem methodSuffix_spec [Phantoms c K] (hs : RecOk c K n self) {ts : Toks} (hn : ts.length ≤ n + 1) {t : TokRef} (ht : Head ts t)
    (hi : is .colon t = true) : wp c K (methodSuffix self c) ts (ResQ (WellTy c K (.cat .suffix)) ts) := by
  unfold methodSuffix methodNode
  wsteps
  all_goals wfin

theorem callSuffix_spec [Phantoms c K] (hs : RecOk c K n self) {ts : Toks} (hn : ts.length ≤ n + 1) {t : TokRef} (ht : Head ts t)
    (hi : startsArgs t = true) : wp c K (callSuffix self c) ts (ResQ (WellTy c K (.cat .suffix)) ts) := by
  unfold callSuffix
  wsteps
  · wfin
  · rename_i h; simp [h t ht] at hi

theorem instSuffix_spec (hs : RecOk c K n self) (hl : c.luau = true) {ts : Toks} (hn : ts.length ≤ n + 1) {t : TokRef} (ht : Head ts t)
    (hi : is .lessThan t = true) : wp c K (instSuffix self) ts (ResQ (WellTy c K (.cat .suffix)) ts) := by
  unfold instSuffix
  wsteps
  all_goals wfin

theorem parseSuffix_spec [Phantoms c K] (hs : RecOk c K n self) {ts : Toks} (hn : ts.length ≤ n + 1) :
    wp c K (parseSuffix self c) ts (ResQ (WellTy c K (.cat .suffix)) ts) := by
  unfold parseSuffix
  wsteps
  all_goals first
    | wfin
    | (refine dotSuffix_spec ‹_› (by notEof) ?_; rw [is_sym]; split <;> simp_all [is]; done)
    | exact bracketSuffix_spec hs hn ‹_› ‹_›
    | exact callSuffix_spec hs hn ‹_› ‹_›
    | exact methodSuffix_spec hs hn ‹_› ‹_›
    | (rename_i h _ _ _ _; exact instSuffix_spec hs (Bool.and_eq_true_iff.1 h).1 hn ‹_› (Bool.and_eq_true_iff.1 h).2)

theorem suffixesLoop_spec [Phantoms c K] (hs : RecOk c K n self) : ∀ (m : Nat) (ts : Toks) (l : List Node),
    ts.length < m → ts.length ≤ n + 1 → AllP (WellTy c K (.cat .suffix)) l →
    wp c K (suffixesLoop self c m l) ts (fun r _ => AllP (WellTy c K (.cat .suffix)) r)
  | 0, _, _, hm, _, _ => by omega
  | m + 1, ts, l, hm, hn, hl => by
    have ih := suffixesLoop_spec hs m
    unfold suffixesLoop
    refine wp_bind (wp_res (parseSuffix_spec hs hn) (fun v ts' h hv => ?_) (fun _ _ => wp_pure hl) (fun _ _ => wp_pure hl))
    exact ih _ _ (by omega) (by omega) (allP_append.2 ⟨hl, allP_one.2 hv⟩)

theorem wp_prefixAndSuffixes [Phantoms c K] (hs : RecOk c K n self) {ts : Toks} (hn : ts.length ≤ n + 1) {Q : Res (Pre × List Node) → Toks → Prop}
    (h1 : ∀ p l ts', ts'.length < ts.length → p.Ok c K → AllP (WellTy c K (.cat .suffix)) l → Q (.value (p, l)) ts')
    (h2 : ∀ ts', ts'.length < ts.length → Q .moved ts')
    (h3 : (∀ t, Head ts t → startsPrefix t = false) → Q .notFound ts) : wp c K (parsePrefixAndSuffixes self c) ts Q := by
  unfold parsePrefixAndSuffixes
  wsteps
  · refine wp_mono (suffixesLoop_spec hs _ _ _ (by omega) (by omega) (allP_nil.2 trivial)) fun l ts' hl h => ?_
    exact wp_pure (h1 _ _ _ (by omega) ‹_› h)
  · exact h2 _ ‹_›
  · exact h3 ‹_›

macro_rules | `(tactic| wspec) => `(tactic| (wp_head parsePrefixAndSuffixes; refine wp_prefixAndSuffixes (by assumption) (by omega) (fun _ _ _ _ _ _ => ?_) (fun _ _ => ?_) (fun _ => ?_)))

theorem callNode_ty {p : Pre} {l : List Node} (hp : p.Ok c K) (hl : AllP (WellTy c K (.cat .suffix)) l) :
    WellTy c K (.cat .functionCall) (callNode p l) := by
  have := hp.node; unfold callNode; ty_simp

theorem varExprNode_ty {p : Pre} {l : List Node} (hp : p.Ok c K) (hl : AllP (WellTy c K (.cat .suffix)) l) :
    WellTy c K (.cat .var) (varExprNode p l) := by
  have := hp.node; unfold varExprNode; ty_simp

theorem varNode_ty {p : Pre} {l : List Node} (hp : p.Ok c K) (hl : AllP (WellTy c K (.cat .suffix)) l) :
    WellTy c K (.cat .var) (varNode p l) := by
  unfold varNode
  split
  · replace hp : K _ ∧ _ = true := hp; ty_simp
  · exact varExprNode_ty hp hl

theorem prefixExprNode_ty {p : Pre} {l : List Node} (hp : p.Ok c K) (hl : AllP (WellTy c K (.cat .suffix)) l) :
    WellTy c K (.cat .expr) (prefixExprNode p l) := by
  have h1 := callNode_ty hp hl
  have h2 := varExprNode_ty hp hl
  unfold prefixExprNode
  split
  · exact hp
  · replace hp : K _ ∧ _ = true := hp; ty_simp
  · split <;> ty_simp

end FM.Parser
