import Verif.Proofs.Parser.Tables
import Verif.Props.Operators

/-! Helper lemmas: functions and operators (Model/Parser/Expr). -/

namespace FM.Parser
open FM.Spec FM.Props

variable {c : Cfg} {K : TokRef → Prop} {α β : Type} {self : Rec} {n : Nat}

/-! ## Functions -/

/-- There are at most as many types as parameters, and none without the feature. -/
def Fit (c : Cfg) (ps : Punctuated Node) (tys : List Node) : Prop :=
  tys.length ≤ ps.pairs.length ∧ (c.feat.luau = false → tys = [])

theorem Fit.push {ps : Punctuated Node} {tys : List Node} (h : Fit c ps tys) (p : Pair Node) : Fit c (ps.push p) tys :=
  ⟨by simp only [Punctuated.push, List.length_append]; have := h.1; omega, h.2⟩

theorem Fit.both {ps : Punctuated Node} {tys : List Node} (h : Fit c ps tys) (hl : c.feat.luau = true) (p : Pair Node) (t : Node) :
    Fit c (ps.push p) (tys ++ [t]) :=
  ⟨by simp only [Punctuated.push, List.length_append, List.length_cons, List.length_nil]; have := h.1; omega,
    fun h0 => by rw [hl] at h0; cases h0⟩

theorem Fit.annotated {ps : Punctuated Node} {tys : List Node} (h : Fit c ps tys) {a b d e f : Node} :
    annotationsFit .funcBody [a, b, punct ps, vec tys, d, e, f] ∧ annotationsCompiled c.feat .funcBody [a, b, punct ps, vec tys, d, e, f] :=
  ⟨by simp only [annotationsFit, vec, punct, Node.children, List.length_map]; exact h.1, h.2⟩

/-- The parameters of a function are well typed. -/
def Params.Ok (c : Cfg) (K : TokRef → Prop) : Params → Prop
  | .done r ps ts => (K r ∧ is .rightParen r = true) ∧ PAll K [.comma] (WellTy c K (.cat .param)) ps ∧ AllP (WellTy c K (.opt (.cat .typeSpec))) ts ∧ Fit c ps ts
  | .unfinished ps => PAll K [.comma] (WellTy c K (.cat .param)) ps

theorem varargType_spec (hs : RecOk c K n self) (hl : c.luau = true) {ts : Toks} (hn : ts.length ≤ n + 1) :
    wp c K (varargType self) ts (OptQ (OptP (WellTy c K (.cat .typeSpec)))) := by
  unfold varargType
  wsteps
  all_goals first
    | exact OptQ.none
    | (refine OptQ.some ?_; ty_simp)

macro_rules | `(tactic| wspec) => `(tactic| (wp_head varargType; refine wp_opt (varargType_spec (by assumption) (by assumption) (by omega)) (fun _ _ _ _ => ?_) (fun _ _ => ?_)))

theorem closeParams_spec {ps : Punctuated Node} (hp : PAll K [.comma] (WellTy c K (.cat .param)) ps) {tys : List Node}
    (ht : AllP (WellTy c K (.opt (.cat .typeSpec))) tys) (hf : Fit c ps tys) {ts : Toks} : wp c K (closeParams ps tys) ts (fun r _ => r.Ok c K) := by
  unfold closeParams
  wsteps
  · exact ⟨⟨‹_›, ‹_›⟩, hp, ht, hf⟩
  · exact hp

theorem ellipsisParam_spec (hs : RecOk c K n self) {ps : Punctuated Node} (hp : PAll K [.comma] (WellTy c K (.cat .param)) ps) {tys : List Node}
    (ht : AllP (WellTy c K (.opt (.cat .typeSpec))) tys) (hf : Fit c ps tys) {ts : Toks} (hn : ts.length ≤ n + 1) {t : TokRef} (hh : Head ts t)
    (he : is .ellipsis t = true) : wp c K (ellipsisParam self c ps tys) ts (fun r _ => r.Ok c K) := by
  unfold ellipsisParam
  wsteps
  · exact closeParams_spec (hp.push_end (by ty_simp)) (by ty_simp) (hf.both (has_iff.1 ‹c.luau = true›).1 _ _)
  · exact hp.push_end (by ty_simp)
  · exact closeParams_spec (hp.push_end (by ty_simp)) (by ty_simp) (hf.push _)

theorem paramsLoop_spec (hs : RecOk c K n self) : ∀ (m : Nat) (ts : Toks) (ps : Punctuated Node) (tys : List Node),
    ts.length < m → ts.length ≤ n + 1 → PAll K [.comma] (WellTy c K (.cat .param)) ps → AllP (WellTy c K (.opt (.cat .typeSpec))) tys → Fit c ps tys →
    wp c K (paramsLoop self c m ps tys) ts (fun r _ => r.Ok c K)
  | 0, _, _, _, hm, _, _, _, _ => by omega
  | m + 1, ts, ps, tys, hm, hn, hp, ht, hf => by
    have ih := paramsLoop_spec hs m
    unfold paramsLoop
    wsteps
    · exact ⟨⟨‹_›, ‹_›⟩, hp, ht, hf⟩
    · exact ellipsisParam_spec hs hp ht hf hn ‹_› ‹_›
    · rename_i t hh _ _ _ hi
      refine wp_mono (parseNameWithTypes_spec hs hn) fun r ts' hl hr => ?_
      rcases hr with ⟨x, rfl, ⟨hx1, -, hx2⟩, hlt⟩ | ⟨-, -, h⟩
      · have hty : AllP (WellTy c K (.opt (.cat .typeSpec))) (if c.feat.luau = true then tys ++ [optNode x.typeSpec] else tys) := by
          split
          · ty_simp
          · exact ht
        have hfit : ∀ p, Fit c (ps.push p) (if c.feat.luau = true then tys ++ [optNode x.typeSpec] else tys) := by
          intro p
          split
          · exact hf.both ‹_› _ _
          · exact hf.push _
        wsteps
        · exact ih _ _ _ (by omega) (by omega) (hp.push_punct (by ty_simp) ‹_› (by sep)) hty (hfit _)
        · exact closeParams_spec (hp.push_end (by ty_simp)) hty (hfit _)
      · rw [h t hh] at hi; cases hi
    · exact hp
    · exact hp

theorem PAll.noTrailing {seps : List Symbol} {P : α → Prop} {p : Punctuated α} (h : PAll K seps P p) : PAll K seps P (noTrailing p) := by
  unfold FM.Parser.noTrailing
  split
  · rename_i v q rest hpop
    simp only [Punctuated.pop, Prod.mk.injEq] at hpop
    obtain ⟨h1, rfl⟩ := hpop
    exact h.dropLast.push_end (h _ (List.mem_of_getLast? h1)).1
  · exact h

theorem wp_unfinishedBody [Phantoms c K] {left : TokRef} (hk : K left) (hi : is .leftParen left = true) {ps : Punctuated Node} (hp : PAll K [.comma] (WellTy c K (.cat .param)) ps)
    {ts : Toks} {Q : Res Node → Toks → Prop} (h : ∀ v, WellTy c K (.cat .funcBody) v → Q (.value v) ts) :
    wp c K (unfinishedBody c left ps) ts Q := by
  have := hp.noTrailing
  unfold unfinishedBody
  wsteps
  refine h _ ?_
  have hfit : ∀ {ps a b d e f}, annotationsFit .funcBody [a, b, punct ps, vec [], d, e, f] ∧ annotationsCompiled c.feat .funcBody [a, b, punct ps, vec [], d, e, f] := Fit.annotated ⟨Nat.zero_le _, fun _ => rfl⟩
  ty_simp

theorem bodyReturnType_spec (hs : RecOk c K n self) {ts : Toks} (hn : ts.length ≤ n + 1) :
    wp c K (bodyReturnType self c) ts (OptQ (OptP (WellTy c K (.cat .typeSpec)))) := by
  unfold bodyReturnType
  wsteps
  all_goals first
    | exact OptQ.none
    | (refine OptQ.some ?_; ty_simp)

macro_rules | `(tactic| wspec) => `(tactic| (wp_head bodyReturnType; refine wp_opt (bodyReturnType_spec (by assumption) (by omega)) (fun _ _ _ _ => ?_) (fun _ _ => ?_)))

theorem bodyRest_spec [Phantoms c K] (hs : RecOk c K n self) {g : Option Node} (hg : OptP (WellTy c K (.cat .genericDecl)) g) {left right : TokRef}
    (h1 : K left) (h2 : K right) (hi1 : is .leftParen left = true) (hi2 : is .rightParen right = true) {ps : Punctuated Node} (hp : PAll K [.comma] (WellTy c K (.cat .param)) ps) {tys : List Node}
    (ht : AllP (WellTy c K (.opt (.cat .typeSpec))) tys) (hf : Fit c ps tys) {ts : Toks} (hn : ts.length ≤ n) :
    wp c K (bodyRest self c g left right ps tys) ts (ValQ (WellTy c K (.cat .funcBody))) := by
  unfold bodyRest
  refine wp_bind (wp_dropTrailing' hp fun ps hp hl _ => ?_)
  have hfit : ∀ {a b d e f}, annotationsFit .funcBody [a, b, punct ps, vec tys, d, e, f] ∧ annotationsCompiled c.feat .funcBody [a, b, punct ps, vec tys, d, e, f] := Fit.annotated ⟨hl ▸ hf.1, hf.2⟩
  wsteps
  all_goals wfin

/-- The result of `parse_function_body`: nothing was found only if there is no left parenthesis. -/
theorem bodyParens_spec [Phantoms c K] (hs : RecOk c K n self) {g : Option Node} (hg : OptP (WellTy c K (.cat .genericDecl)) g) {ts : Toks}
    (hn : ts.length ≤ n + 1) : wp c K (bodyParens self c g) ts (ResQ (WellTy c K (.cat .funcBody)) ts) := by
  unfold bodyParens
  wsteps
  · refine wp_mono (paramsLoop_spec hs _ _ _ _ (by omega) (by omega) .new (allP_nil.2 trivial) ⟨Nat.le_refl _, fun _ => rfl⟩) fun r ts' hl hr => ?_
    cases r with
    | done r ps tys =>
      obtain ⟨⟨h1, hi⟩, h2, h3, h4⟩ := hr
      exact wp_val (bodyRest_spec hs hg ‹_› h1 ‹_› hi h2 h3 h4 (by omega)) (fun _ _ _ h => ResQ.value h (by omega)) (fun _ _ => ResQ.moved) (fun _ _ => ResQ.notFound)
    | unfinished ps => exact wp_unfinishedBody ‹_› ‹_› hr fun v hv => ResQ.value hv (by omega)
  · wfin

theorem parseFunctionBody_spec [Phantoms c K] (hs : RecOk c K n self) {ts : Toks} (hn : ts.length ≤ n + 1) :
    wp c K (parseFunctionBody self c) ts (ResQ (WellTy c K (.cat .funcBody)) ts) := by
  unfold parseFunctionBody
  wsteps
  · exact wp_res (bodyParens_spec hs (by simpa [optP_some]) (by omega)) (fun _ _ _ h => ResQ.value h (by omega)) (fun _ _ => ResQ.moved) (fun _ _ => ResQ.notFound)
  · wfin
  · exact wp_res (bodyParens_spec hs (by simp [optP_none]) (by omega)) (fun _ _ _ h => ResQ.value h (by omega)) (fun _ _ => ResQ.moved) (fun _ _ => ResQ.notFound)

macro_rules | `(tactic| wspec) => `(tactic| (wp_head parseFunctionBody; refine wp_res (parseFunctionBody_spec (by assumption) (by omega)) (fun _ _ _ _ => ?_) (fun _ _ => ?_) (fun _ _ => ?_)))

theorem anonymousFunction_spec [Phantoms c K] (hs : RecOk c K n self) {as : List Node} (ha : AllP (WellTy c K (.cat .luauAttr)) as) {ts : Toks}
    (hn : ts.length ≤ n + 1) {t : TokRef} (ht : Head ts t) (hf : is .kFunction t = true) :
    wp c K (anonymousFunction self c as) ts (ResQ (WellTy c K (.cat .expr)) ts) := by
  unfold anonymousFunction
  wsteps
  all_goals wfin

theorem attributedFunction_spec [Phantoms c K] (hs : RecOk c K n self) (hl : c.luau = true) {ts : Toks} (hn : ts.length ≤ n + 1) {t : TokRef}
    (ht : Head ts t) (ha : is .atSign t = true) : wp c K (attributedFunction self c) ts (ResQ (WellTy c K (.cat .expr)) ts) := by
  unfold attributedFunction
  refine wp_bind (wp_res (parseAttributes_spec hl ht ha) (fun _ _ _ _ => ?_) (fun _ _ => ?_) (fun _ _ => ?_)) <;> wsteps
  · exact wp_res (anonymousFunction_spec hs ‹_› (by omega) ‹_› ‹_›) (fun _ _ _ h => ResQ.value h (by omega)) (fun _ _ => ResQ.moved) (fun _ _ => ResQ.notFound)
  all_goals wfin

/-! ## `if` expressions and interpolated strings -/

theorem ifOperand_spec (hs : RecOk c K n self) (hl : c.luau = true) {ts : Toks} (hn : ts.length ≤ n) :
    wp c K (ifOperand self) ts (OptQ (WellTy c K (.cat .expr))) := by
  unfold ifOperand
  wsteps
  all_goals wfin

macro_rules | `(tactic| wspec) => `(tactic| (wp_head ifOperand; refine wp_opt (ifOperand_spec (by assumption) (by assumption) (by omega)) (fun _ _ _ _ => ?_) (fun _ _ => ?_)))

theorem ifPart_spec (hs : RecOk c K n self) (hl : c.luau = true) {ts : Toks} (hn : ts.length ≤ n) :
    wp c K (ifPart self) ts (OptQ fun p => WellTy c K (.cat .expr) p.1 ∧ (K p.2.1 ∧ is .kThen p.2.1 = true) ∧ WellTy c K (.cat .expr) p.2.2) := by
  unfold ifPart
  wsteps
  all_goals wfin

theorem wp_ifPart (hs : RecOk c K n self) (hl : c.luau = true) {ts : Toks} (hn : ts.length ≤ n)
    {Q : Option (Node × TokRef × Node) → Toks → Prop}
    (h1 : ∀ a t b ts', ts'.length ≤ ts.length → WellTy c K (.cat .expr) a → K t → is .kThen t = true → WellTy c K (.cat .expr) b → Q (some (a, t, b)) ts')
    (h2 : ∀ ts', ts'.length ≤ ts.length → Q none ts') : wp c K (ifPart self) ts Q :=
  wp_opt (ifPart_spec hs hl hn) (fun v ts' hl hv => h1 v.1 v.2.1 v.2.2 ts' hl hv.1 hv.2.1.1 hv.2.1.2 hv.2.2) h2

macro_rules | `(tactic| wspec) => `(tactic| (wp_head ifPart; refine wp_ifPart (by assumption) (by assumption) (by omega) (fun _ _ _ _ _ _ _ _ _ => ?_) (fun _ _ => ?_)))

theorem elseIfExprs_spec (hs : RecOk c K n self) (hl : c.luau = true) : ∀ (m : Nat) (ts : Toks) (l : List Node),
    ts.length < m → ts.length ≤ n + 1 → AllP (WellTy c K (.cat .elseIfExpr)) l →
    wp c K (elseIfExprs self m l) ts (OptQ (AllP (WellTy c K (.cat .elseIfExpr))))
  | 0, _, _, hm, _, _ => by omega
  | m + 1, ts, l, hm, hn, hp => by
    have ih := elseIfExprs_spec hs hl m
    unfold elseIfExprs
    wsteps
    · exact ih _ _ (by omega) (by omega) (by ty_simp)
    all_goals wfin

theorem wellTy_optVec {a : Ty} {l : List Node} (h : AllP (WellTy c K a) l) : WellTy c K (.opt (.vec a)) (optVec l) := by
  unfold optVec
  split <;> ty_simp

theorem expectIfElse_spec (hs : RecOk c K n self) (hl : c.luau = true) {t : TokRef} (hk : K t) (hi : is .kIf t = true) {ts : Toks} (hn : ts.length ≤ n) :
    wp c K (expectIfElse self t) ts (OptQ (WellTy c K (.cat .ifExpr))) := by
  unfold expectIfElse
  wsteps
  · refine wp_opt (elseIfExprs_spec hs hl _ _ _ (by omega) (by omega) (allP_nil.2 trivial)) (fun l _ _ hp => ?_) (fun _ _ => ?_)
    · have := wellTy_optVec hp
      wsteps
      all_goals wfin
    · wsteps
      wfin
  · wfin

macro_rules | `(tactic| wspec) => `(tactic| (wp_head expectIfElse; refine wp_opt (expectIfElse_spec (by assumption) (by assumption) (by assumption) (by assumption) (by omega)) (fun _ _ _ _ => ?_) (fun _ _ => ?_)))

theorem interpBroken_ty [Phantoms c K] {first : TokRef} (hk : K first) (hi : (interpKind first).isSome = true) {l : List Node} (hl : AllP (WellTy c K (.cat .interpSegment)) l) :
    WellTy c K (.cat .interpString) (interpBroken first l) := by
  have he : K interpolatedEnd := Phantoms.phantom (c := c) _ (.inr (.inr rfl))
  have hi' : (interpKind interpolatedEnd).isSome = true := rfl
  unfold interpBroken
  split <;> ty_simp

theorem wp_doubleBrace {cur : TokRef} {ts : Toks} {Q : Bool → Toks → Prop} (h : ∀ b ts', ts'.length ≤ ts.length → Q b ts') :
    wp c K (doubleBrace cur) ts Q := by
  unfold doubleBrace
  wsteps
  all_goals exact h _ _ (by omega)

macro_rules | `(tactic| wspec) => `(tactic| (wp_head doubleBrace; refine wp_doubleBrace (fun _ _ _ => ?_)))

theorem wp_skipBrace {b : Bool} {ts : Toks} {Q : Unit → Toks → Prop} (h : ∀ ts', ts'.length ≤ ts.length → Q () ts') :
    wp c K (skipBrace b) ts Q := by
  unfold skipBrace
  wsteps
  all_goals exact h _ (by omega)

macro_rules | `(tactic| wspec) => `(tactic| (wp_head skipBrace; refine wp_skipBrace (fun _ _ => ?_)))

theorem interpLoop_spec [Phantoms c K] (hs : RecOk c K n self) {first : TokRef} (hk : K first) (hi : (interpKind first).isSome = true) :
    ∀ (m : Nat) (ts : Toks) (cur : TokRef) (l : List Node),
    ts.length < m → ts.length ≤ n → K cur → (interpKind cur).isSome = true → AllP (WellTy c K (.cat .interpSegment)) l →
    wp c K (interpLoop self first m cur l) ts (fun r _ => WellTy c K (.cat .interpString) r)
  | 0, _, _, _, hm, _, _, _, _ => by omega
  | m + 1, ts, cur, l, hm, hn, hc, hj, hp => by
    have ih := interpLoop_spec hs hk hi m
    unfold interpLoop
    wsteps
    · rename_i e _ _ _ _ _ _ _ _
      have hp' : AllP (WellTy c K (.cat .interpSegment)) (l ++ [.node .interpSegment [.tok cur, e]]) := by ty_simp
      split
      · wsteps
        ty_simp
      · refine wp_bind (wp_consume ‹_› (by notEof) fun _ _ => ?_)
        exact ih _ _ _ (by omega) (by omega) ‹_› (by rw [‹interpKind _ = some _›]; rfl) hp'
      · wsteps
        exact interpBroken_ty (c := c) hk hi hp'
    · rename_i e _ _ _ _ _ _
      exact interpBroken_ty (c := c) hk hi (by ty_simp)
    · exact interpBroken_ty (c := c) hk hi hp
    · exact interpBroken_ty (c := c) hk hi hp

theorem interpolated_spec [Phantoms c K] (hs : RecOk c K n self) (hl : c.luau = true) {k : InterpKind} {ts : Toks} (hn : ts.length ≤ n + 1)
    {t : TokRef} (ht : Head ts t) (hi : interpKind t = some k) :
    wp c K (interpolated self k) ts (ResQ (WellTy c K (.cat .expr)) ts) := by
  have hj : (interpKind t).isSome = true := by rw [hi]; rfl
  unfold interpolated expectInterpolated
  cases k <;> wsteps
  all_goals first
    | wfin
    | skip
  refine wp_mono (interpLoop_spec hs ‹_› hj _ _ _ _ (by omega) (by omega) ‹_› hj (allP_nil.2 trivial)) fun v ts' hl hv => ?_
  wsteps
  wfin

/-! ## Operators -/

theorem SymOk.of {t : TokRef} (h : SymOk c t) {s : Symbol} (hs : is s t = true) : Enabled c s := by
  unfold is TokRef.isSymbol at hs
  exact h s (by simpa using hs)

theorem SymOk.luau_of_at {t : TokRef} (h : SymOk c t) (hs : is .atSign t = true) : c.luau = true := by
  rcases h.of hs with h | ⟨v, hv, h⟩
  · exact absurd h (by decide)
  · rw [show introducedBy Symbol.atSign.text = [Ver.luau] by decide] at hv
    simp only [List.mem_singleton] at hv
    subst hv; exact h

theorem SymOk.lua53_of_tilde {t : TokRef} (h : SymOk c t) (hs : is .tilde t = true) : c.lua53 = true := by
  rcases h.of hs with h | ⟨v, hv, h⟩
  · exact absurd h (by decide)
  · rw [show introducedBy Symbol.tilde.text = [Ver.lua53] by decide] at hv
    simp only [List.mem_singleton] at hv
    subst hv; exact h

theorem unaryOp_of_starts {t : TokRef} (h : SymOk c t) (hs : startsUnary c t = true) : ∃ o, unaryOp c t = some o := by
  unfold startsUnary at hs
  unfold unaryOp
  split
  · exact ⟨_, rfl⟩
  split
  · exact ⟨_, rfl⟩
  split
  · exact ⟨_, rfl⟩
  split
  · exact ⟨_, rfl⟩
  · rename_i h1 h2 h3 h4
    simp only [h1, h2, h3, Bool.false_or, Bool.and_eq_true_iff] at hs
    simp [h.lua53_of_tilde hs.2, hs.2] at h4

theorem solid_starts {t : TokRef} (hs : startsUnary c t = true) : t.isEof = false := by
  unfold startsUnary at hs
  simp only [Bool.or_eq_true_iff, Bool.and_eq_true_iff] at hs
  rcases hs with ((h | h) | h) | ⟨-, h⟩ <;> exact notEof_is h

/-- The token may be taken for an operator although its version is not active only in one case. -/
theorem accept_none {t : TokRef} (h : SymOk c t) {level : Nat} (hp : BinOp.precedenceOfToken c.feat t = some level)
    (ha : BinOp.accept c t = none) : c.luau = true ∧ c.feat.lua53 = true ∧ c.lua53 = false := by
  obtain ⟨o, ho, hc⟩ := precedence_of_token_iff.1 ⟨_, hp⟩
  have hn : c.hasAny o.gates = false := by
    cases hx : c.hasAny o.gates
    · rfl
    · rw [BinOp.accept_some.2 ⟨ho, hc, hx⟩] at ha; cases ha
  have he := h _ ho
  unfold Enabled at he
  cases o <;> first
    | (simp [BinOp.gates, Cfg.hasAny] at hn; done)
    | (rw [show introducedBy (BinOp.symbol _).text = [Ver.lua53] by decide] at he
       simp [BinOp.gates, Cfg.hasAny] at hn he
       rw [hn] at he; cases he)
    | (rw [show introducedBy (BinOp.symbol _).text = [Ver.luau, Ver.lua53] by decide] at he
       simp [BinOp.gates, Cfg.hasAny, BinOp.compiled] at hn he hc
       simp_all [Features.has])

theorem notEof_op {f : Features} {t : TokRef} {level : Nat} (h : BinOp.precedenceOfToken f t = some level) : t.isEof = false := by
  unfold BinOp.precedenceOfToken at h
  split at h
  · rename_i s hs; simp [TokRef.isEof, hs, TokenType.kind]
  · cases h

theorem wp_climb (hs : RecOk c K n self) {lhs : Node} (hl : WellTy c K (.cat .expr) lhs) {p : Nat} {ts : Toks} (hn : ts.length ≤ n)
    {Q : Res Node → Toks → Prop}
    (h1 : ∀ v ts', WellTy c K (.cat .expr) v → (ts'.length < ts.length ∨
      ts' = ts ∧ ∀ t, Head ts t → ∀ level, BinOp.precedenceOfToken c.feat t = some level → level < p) → Q (.value v) ts')
    (h2 : ∀ ts', ts'.length ≤ ts.length → Q .moved ts')
    (h3 : ∀ ts', ts'.length ≤ ts.length → Q .notFound ts') : wp c K (self.climb lhs p) ts Q := by
  refine wp_mono (hs.climb ts lhs p hn hl) fun r ts' hl hr => ?_
  cases r with
  | value v => exact h1 v ts' (hr v rfl).1 (hr v rfl).2
  | moved => exact h2 ts' hl
  | notFound => exact h3 ts' hl

theorem wp_primary (hs : RecOk c K n self) {ts : Toks} (hn : ts.length ≤ n)
    {Q : Res Node → Toks → Prop}
    (h1 : ∀ v ts', ts'.length < ts.length → WellTy c K (.cat .expr) v → Q (.value v) ts')
    (h2 : ∀ ts', ts'.length ≤ ts.length → Q .moved ts')
    (h3 : ∀ ts', ts'.length ≤ ts.length → Q .notFound ts') : wp c K self.primary ts Q :=
  wp_res (hs.primary ts hn) h1 h2 h3

theorem Kind.sig_unOp (o : UnOp) : (Kind.unOp o).cat = some .unOp ∧ (Kind.unOp o).sig = [.tok] := ⟨rfl, rfl⟩
theorem Kind.sig_binOp (o : BinOp) : (Kind.binOp o).cat = some .binOp ∧ (Kind.binOp o).sig = [.tok] := ⟨rfl, rfl⟩

theorem accept_available {t : TokRef} {o : BinOp} (h : BinOp.accept c t = some o) : available c (.binOp o) = true := by
  unfold BinOp.accept at h
  split at h
  · split at h
    · split at h
      · rename_i hg; cases h; exact hg
      · cases h
    · cases h
  · cases h

theorem unaryOp_available {t : TokRef} {o : UnOp} (h : unaryOp c t = some o) : available c (.unOp o) = true := by
  unfold unaryOp at h
  split at h
  · cases h; rfl
  · split at h
    · cases h; rfl
    · split at h
      · cases h; rfl
      · split at h
        · rename_i h'; cases h; rw [Bool.and_eq_true_iff] at h'; exact h'.1
        · cases h

theorem unaryOp_is {t : TokRef} {o : UnOp} (h : unaryOp c t = some o) : is (unarySymbol o) t = true := by
  unfold unaryOp at h
  repeat' split at h
  all_goals first | cases h | skip
  all_goals first | assumption | exact (Bool.and_eq_true_iff.1 ‹_›).2

theorem accept_is {t : TokRef} {o : BinOp} (h : BinOp.accept c t = some o) : is o.symbol t = true := by
  simp [is, TokRef.isSymbol, (BinOp.accept_some.1 h).1]

theorem parseUnary_spec (hs : RecOk c K n self) {t : TokRef} (hk : K t) {o : UnOp} (ho : unaryOp c t = some o) {ts : Toks} (hn : ts.length ≤ n) :
    wp c K (parseUnary self c t) ts (ValQ (WellTy c K (.cat .expr))) := by
  have ha := unaryOp_available ho
  have hi := unaryOp_is ho
  unfold parseUnary
  rw [ho]
  refine wp_bind (wp_primary hs hn (fun v ts' hl hv => ?_) (fun _ _ => wp_pure .moved) fun _ _ => wp_bind (wp_tokenError hk (wp_pure .notFound)))
  refine wp_bind (wp_climb hs hv (by omega) (fun w ts'' hw _ => wp_pure (.value ?_)) (fun _ _ => wp_pure .moved)
    fun _ _ => wp_bind (wp_tokenError hk (wp_pure .moved)))
  ty_simp

theorem prefixExpression_spec [Phantoms c K] (hs : RecOk c K n self) {ts : Toks} (hn : ts.length ≤ n + 1) {t : TokRef} (ht : Head ts t)
    (hp : startsPrefix t = true) : wp c K (prefixExpression self c) ts (ResQ (WellTy c K (.cat .expr)) ts) := by
  unfold prefixExpression
  wsteps
  · exact ResQ.value (prefixExprNode_ty ‹_› ‹_›) (by omega)
  · exact ResQ.moved
  · rename_i h; rw [h t ht] at hp; cases hp

theorem primaryBase_spec [Phantoms c K] (hs : RecOk c K n self) {ts : Toks} (hn : ts.length ≤ n + 1) :
    wp c K (primaryBase self c) ts (ResQ (WellTy c K (.cat .expr)) ts) := by
  refine wp_good fun hg => ?_
  unfold primaryBase
  refine wp_bind (wp_current (fun t ht hk => ?_) fun _ => wp_pure .notFound)
  have hsym := (hg.head ht).2
  refine wp_ite (fun h => ?_) fun _ => ?_
  · have := (Bool.and_eq_true_iff.1 h).2
    exact attributedFunction_spec hs (hsym.luau_of_at this) hn ht this
  refine wp_ite (fun h => anonymousFunction_spec hs (allP_nil.2 trivial) hn ht h) fun _ => ?_
  refine wp_ite (fun h => ?_) fun _ => ?_
  · refine wp_bind (wp_take ht ?_ fun hk hl => wp_pure (.value ?_ (by omega)))
    · simp only [Bool.or_eq_true_iff] at h
      rcases h with ((h | h) | h) | h <;> exact notEof_is h
    · have : Term.Is (.sym [.kTrue, .kFalse, .kNil, .ellipsis]) t := by
        rw [is_sym]
        simpa [is, or_assoc] using h
      ty_simp
  refine wp_ite (fun h => wp_bind (wp_take ht (by notEof) fun hk hl => wp_pure (.value (by ty_simp) (by omega)))) fun _ => ?_
  refine wp_ite (fun h => wp_bind (wp_take ht (by notEof) fun hk hl => wp_pure (.value (by ty_simp) (by omega)))) fun _ => ?_
  refine wp_ite (fun h => prefixExpression_spec hs hn ht (by simpa [startsPrefix, or_comm] using h)) fun _ => ?_
  refine wp_ite (fun h => ?_) fun _ => ?_
  · obtain ⟨o, ho⟩ := unaryOp_of_starts hsym h
    refine wp_bind (wp_take ht (solid_starts h) fun hk hl => ?_)
    exact wp_val (parseUnary_spec hs hk ho (by omega)) (fun v _ _ hv => ResQ.value hv (by omega)) (fun _ _ => .moved) fun _ _ => .notFound
  refine wp_ite (fun h => ?_) fun _ => ?_
  · wsteps
    wfin
  refine wp_ite (fun h => ?_) fun _ => ?_
  · obtain ⟨hl, h⟩ := Bool.and_eq_true_iff.1 h
    wsteps <;> wfin
  split
  · exact wp_ite (fun hl => interpolated_spec hs hl hn ht ‹_›) fun _ => wp_pure .notFound
  · exact wp_pure .notFound

theorem parsePrimary_spec [Phantoms c K] (hs : RecOk c K n self) {ts : Toks} (hn : ts.length ≤ n + 1) :
    wp c K (parsePrimary self c) ts (ResQ (WellTy c K (.cat .expr)) ts) := by
  unfold parsePrimary
  refine wp_bind (wp_res (primaryBase_spec hs hn) (fun v ts' hl hv => ?_) (fun _ _ => wp_pure .moved) fun _ _ => wp_pure .notFound)
  wsteps
  all_goals wfin

theorem rhsLoop_spec (hs : RecOk c K n self) {level : Nat} {op : TokRef} (hk : K op) : ∀ (m : Nat) (ts : Toks) (rhs : Node),
    ts.length < m → ts.length ≤ n → WellTy c K (.cat .expr) rhs →
    wp c K (rhsLoop self c level op m rhs) ts (OptQ (WellTy c K (.cat .expr)))
  | 0, _, _, hm, _, _ => by omega
  | m + 1, ts, rhs, hm, hn, hr => by
    have ih := rhsLoop_spec hs (level := level) hk m
    unfold rhsLoop
    refine wp_bind (wp_current (fun t ht hkt => ?_) fun _ => wp_pure (.some hr))
    dsimp only
    cases hnext : BinOp.precedenceOfToken c.feat t with
    | none => exact wp_pure (.some hr)
    | some next =>
      refine wp_ite (fun hc => ?_) fun _ => wp_pure (.some hr)
      refine wp_bind (wp_climb hs hr hn (fun v ts' hv hlt => ?_) (fun _ _ => wp_pure .none)
        fun _ _ => wp_bind (wp_tokenError hk (wp_pure .none)))
      rcases hlt with hlt | ⟨-, hlt⟩
      · exact ih _ _ (by omega) (by omega) hv
      · have := hlt t ht next hnext
        simp only [Bool.or_eq_true, decide_eq_true_eq, Bool.and_eq_true, beq_iff_eq] at hc
        split at this <;> omega

theorem climbLoop_spec (hs : RecOk c K n self) {p : Nat} : ∀ (m : Nat) (ts : Toks) (lhs : Node),
    ts.length < m → ts.length ≤ n + 1 → WellTy c K (.cat .expr) lhs →
    wp c K (climbLoop self c p m lhs) ts (ClimbQ c K p ts)
  | 0, _, _, hm, _, _ => by omega
  | m + 1, ts, lhs, hm, hn, hl => by
    have ih := climbLoop_spec hs (p := p) m
    unfold climbLoop
    refine wp_good fun hg => ?_
    refine wp_bind (wp_current (fun t ht hkt => ?_) fun hx => wp_pure ?_)
    · dsimp only
      cases hlev : BinOp.precedenceOfToken c.feat t with
      | none =>
        refine wp_pure fun v hv => ?_
        cases hv
        exact ⟨hl, .inr ⟨rfl, fun u hu level h => by rw [← ht.inj hu, hlev] at h; cases h⟩⟩
      | some level =>
        refine wp_ite (fun hlt => wp_pure fun v hv => ?_) fun hge => ?_
        · cases hv
          exact ⟨hl, .inr ⟨rfl, fun u hu level' h => by rw [← ht.inj hu, hlev] at h; cases h; exact hlt⟩⟩
        · cases hacc : BinOp.accept c t with
          | none =>
            obtain ⟨h1, h2, h3⟩ := accept_none (hg.head ht).2 hlev hacc
            exact wp_panic ⟨h1, .inr ⟨h2, h3⟩⟩
          | some o =>
            have ha := accept_available hacc
            have hi := accept_is hacc
            refine wp_bind (wp_take ht (notEof_op hlev) fun hk hlen => ?_)
            refine wp_bind (wp_primary hs (by omega) (fun rhs ts1 hl1 hrhs => ?_) (fun _ _ => wp_pure (by intro v hv; cases hv))
              fun ts1 hl1 => wp_bind (wp_tokenError hk (wp_pure ?_)))
            · refine wp_bind (wp_fuel ?_)
              refine wp_bind (wp_opt (rhsLoop_spec hs hk _ _ _ (by omega) (by omega) hrhs) (fun v ts2 hl2 hv => ?_) fun ts2 hl2 => wp_pure ?_)
              · refine wp_mono (ih ts2 _ (by omega) (by omega) (by ty_simp)) fun r ts3 hl3 hr w hw => ?_
                exact ⟨(hr w hw).1, .inl (by omega)⟩
              · intro v hv; cases hv
                exact ⟨hl, .inl (by omega)⟩
            · intro v hv; cases hv
              exact ⟨hl, .inl (by omega)⟩
    · intro v hv; cases hv
      exact ⟨hl, .inr ⟨rfl, fun u hu => absurd hu (hx u)⟩⟩

theorem parseClimb_spec (hs : RecOk c K n self) {lhs : Node} (hl : WellTy c K (.cat .expr) lhs) {p : Nat} {ts : Toks} (hn : ts.length ≤ n + 1) :
    wp c K (parseClimb self c lhs p) ts (ClimbQ c K p ts) :=
  wp_bind (wp_fuel (climbLoop_spec hs _ _ _ (by omega) hn hl))

theorem parseExpression_spec [Phantoms c K] (hs : RecOk c K n self) {ts : Toks} (hn : ts.length ≤ n + 1) :
    wp c K (parseExpression self c) ts (ResQ (WellTy c K (.cat .expr)) ts) := by
  unfold parseExpression
  refine wp_bind (wp_res (parsePrimary_spec hs hn) (fun v ts' hl hv => ?_) (fun _ _ => wp_pure .moved) fun _ _ => wp_pure .notFound)
  refine wp_mono (parseClimb_spec hs hv (by omega)) fun r ts'' hl' hr w hw => ?_
  exact ⟨(hr w hw).1, by omega⟩

end FM.Parser
