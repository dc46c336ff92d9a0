import Verif.Proofs.Parser.Expr

/-! Helper lemmas: statements and blocks (Model/Parser/Stmt). -/

namespace FM.Parser
open FM.Spec FM.Props

variable {c : Cfg} {K : TokRef → Prop} {α β : Type} {self : Rec} {n : Nat}

/-- A statement is well typed. -/
def StmtOk (c : Cfg) (K : TokRef → Prop) : StmtV → Prop
  | .stmt n => WellTy c K (.cat .stmt) n
  | .last n => WellTy c K (.cat .lastStmt) n

/-- The result of `parse_stmt`. -/
def StmtQ (c : Cfg) (K : TokRef → Prop) (ts : Toks) (r : Res StmtV) (ts' : Toks) : Prop :=
  (∀ v, r = .value v → StmtOk c K v ∧ ts'.length < ts.length) ∧ (r = .moved → ts'.length < ts.length)

theorem stmtQ_of_val {p : M (Res StmtV)} {ts ts0 : Toks} (h : wp c K p ts (ValQ (StmtOk c K))) (hl : ts.length < ts0.length) :
    wp c K p ts (StmtQ c K ts0) :=
  wp_mono h fun _ _ hl' hr => ⟨fun v hv => ⟨hr v hv, by omega⟩, fun _ => by omega⟩

/-- Closes the end of a path through a statement. -/
macro "sfin" : tactic => `(tactic| first
  | exact ValQ.moved
  | exact ValQ.notFound
  | (refine ValQ.value ?_; show WellTy _ _ _ _; wty))

/-! ## Functions -/

theorem wp_newBody [Phantoms c K] {ts : Toks} {Q : Node → Toks → Prop} (h : ∀ v, WellTy c K (.cat .funcBody) v → Q v ts) :
    wp c K (newBody c) ts Q := by
  have := PAll.new (K := K) (seps := [.comma]) (P := WellTy c K (.cat .param))
  unfold newBody
  wsteps
  refine h _ ?_
  have hfit : ∀ {a b d e f}, annotationsFit .funcBody [a, b, punct .new, vec [], d, e, f] ∧ annotationsCompiled c.feat .funcBody [a, b, punct .new, vec [], d, e, f] := Fit.annotated ⟨Nat.le_refl _, fun _ => rfl⟩
  ty_simp

macro_rules | `(tactic| wspec) => `(tactic| (wp_head newBody; refine wp_newBody (fun _ _ => ?_)))

theorem functionNameNode_ty {names : Punctuated TokRef} (hn : PAll K [.dot] (fun t => K t ∧ t.isIdent = true) names) {o : Option (TokRef × TokRef)}
    (ho : OptP (fun p => (K p.1 ∧ is .colon p.1 = true) ∧ K p.2 ∧ p.2.isIdent = true) o) : WellTy c K (.cat .functionName) (functionNameNode names o) := by
  have h1 : PAll K [.dot] (In c K .tok (.tok .name)) ⟨names.pairs.map (Pair.map .tok)⟩ := hn.map fun a ha => by rw [in_tok, is_name]; exact ha
  unfold functionNameNode
  cases o with
  | none => simp only [Option.map_none]; ty_simp
  | some p =>
    rw [optP_some] at ho
    simp only [Option.map_some]; ty_simp

theorem pushPunctuated_ok {seps : List Symbol} {P : α → Prop} {p : Punctuated α} (hp : PAll K seps P p) (hne : p.pairs ≠ []) (ht : NoTrail p) {v : α} (hv : P v)
    {t : TokRef} (hk : K t) (hi : seps.any t.isSymbol = true) : ∃ q, p.pushPunctuated v t = .returned () q ∧ PAll K seps P q ∧ q.pairs ≠ [] ∧ NoTrail q := by
  unfold Punctuated.pushPunctuated Punctuated.pop
  cases hl : p.pairs.getLast? with
  | none => exact absurd (List.getLast?_eq_none_iff.1 hl) hne
  | some x =>
    dsimp only
    rw [ht x hl]
    refine ⟨_, rfl, ?_, by simp [Punctuated.push], ?_⟩
    · have hx := hp x (List.mem_of_getLast? hl)
      have := (hp.dropLast.push_punct (v := x.intoValue) (t := t) (by cases x <;> exact hx.1) hk hi).push_end hv
      exact this
    · intro y hy
      simp [Punctuated.push] at hy
      subst hy; rfl

theorem noTrail_one {v : α} : NoTrail ((.new : Punctuated α).push (.end v)) := by
  intro x hx
  simp [Punctuated.push, Punctuated.new] at hx
  subst hx; rfl

theorem functionNameLoop_spec : ∀ (m : Nat) (ts : Toks) (names : Punctuated TokRef), ts.length < m → PAll K [.dot] (fun t => K t ∧ t.isIdent = true) names →
    names.pairs ≠ [] → NoTrail names → wp c K (functionNameLoop m names) ts (ValQ (WellTy c K (.cat .functionName)))
  | 0, _, _, hm, _, _, _ => by omega
  | m + 1, ts, names, hm, hp, hne, ht => by
    have ih := functionNameLoop_spec m
    unfold functionNameLoop
    refine wp_bind (wp_takeIf (by solid) (fun t hh hk hor hl => ?_) (fun _ _ _ _ => ?_) (fun _ => wp_pure .moved))
    · refine wp_bind (wp_takeIf (by solid) (fun u hu hku hiu hl' => ?_) (fun u _ hku _ => ?_) (fun _ => wp_pure .moved))
      · refine wp_ite (fun hd => ?_) fun hd => wp_ite (fun hc => ?_) fun hc => ?_
        · obtain ⟨q, hq, h1, h2, h3⟩ := pushPunctuated_ok hp hne ht ⟨hku, hiu⟩ hk (sep_is hd)
          rw [hq]
          exact ih _ _ (by omega) h1 h2 h3
        · exact wp_pure (.value (functionNameNode_ty hp (optP_some.2 ⟨⟨hk, hc⟩, hku, hiu⟩)))
        · simp [hd, hc] at hor
      · exact wp_bind (wp_tokenError hku (wp_pure .notFound))
    · exact wp_pure (.value (functionNameNode_ty hp (optP_none.2 trivial)))

theorem expectFunctionName_spec {ts : Toks} : wp c K expectFunctionName ts (ValQ (WellTy c K (.cat .functionName))) := by
  unfold expectFunctionName
  wsteps
  · exact functionNameLoop_spec _ _ _ (by omega) (PAll.new.push_end ⟨‹_›, ‹_›⟩) (by simp [Punctuated.push]) noTrail_one
  all_goals wfin

macro_rules | `(tactic| wspec) => `(tactic| (wp_head expectFunctionName; refine wp_val expectFunctionName_spec (fun _ _ _ _ => ?_) (fun _ _ => ?_) (fun _ _ => ?_)))

theorem expectFunctionDeclaration_spec [Phantoms c K] (hs : RecOk c K n self) {as : List Node} (ha : AllP (WellTy c K (.cat .luauAttr)) as)
    {t : TokRef} (hk : K t) (hi : is .kFunction t = true) {ts : Toks} (hn : ts.length ≤ n) :
    wp c K (expectFunctionDeclaration self c as t) ts (OptQ (WellTy c K (.cat .functionDecl))) := by
  unfold expectFunctionDeclaration
  wsteps
  all_goals wfin

macro_rules | `(tactic| wspec) => `(tactic| (wp_head expectFunctionDeclaration; refine wp_opt (expectFunctionDeclaration_spec (by assumption) (by first | assumption | exact allP_nil.2 trivial) (by assumption) (by assumption) (by omega)) (fun _ _ _ _ => ?_) (fun _ _ => ?_)))

theorem expectLocalFunction_spec [Phantoms c K] (hs : RecOk c K n self) {as : List Node} (ha : AllP (WellTy c K (.cat .luauAttr)) as)
    {l t : TokRef} (hkl : K l) (hil : is .kLocal l = true) (hk : K t) (hi : is .kFunction t = true) {ts : Toks} (hn : ts.length ≤ n) :
    wp c K (expectLocalFunction self c as l t) ts (OptQ (WellTy c K (.cat .localFunction))) := by
  unfold expectLocalFunction
  wsteps
  all_goals wfin

macro_rules | `(tactic| wspec) => `(tactic| (wp_head expectLocalFunction; refine wp_opt (expectLocalFunction_spec (by assumption) (by first | assumption | exact allP_nil.2 trivial) (by assumption) (by assumption) (by assumption) (by assumption) (by omega)) (fun _ _ _ _ => ?_) (fun _ _ => ?_)))

/-! ## `local` -/

theorem typeSpecs_ty {names : Punctuated Name} (h : PAll K [.comma] (Name.Ok c K) names) : WellTy c K (.vec (.opt (.cat .typeSpec))) (typeSpecs c names) := by
  unfold typeSpecs
  rw [wellTy_vec_vec]
  split
  · intro x hx
    obtain ⟨p, hp, rfl⟩ := List.mem_map.1 hx
    exact wellTy_optNode.2 (h p hp).1.2.2
  · exact allP_nil.2 trivial

theorem attrs_ty {names : Punctuated Name} (h : PAll K [.comma] (Name.Ok c K) names) : WellTy c K (.vec (.opt (.cat .attribute))) (attrs c names) := by
  unfold attrs
  rw [wellTy_vec_vec]
  split
  · intro x hx
    obtain ⟨p, hp, rfl⟩ := List.mem_map.1 hx
    exact wellTy_optNode.2 (h p hp).1.2.1
  · exact allP_nil.2 trivial

theorem nameNodes_ty {names : Punctuated Name} (h : PAll K [.comma] (Name.Ok c K) names) : In c K (.punct .tok) (.list (.tok .name) [.comma] .nonempty) (nameNodes names) :=
  in_punct.2 (h.map fun _ ha => by rw [in_tok, is_name]; exact ha.1)

theorem typeSpecs_fit {names : Punctuated Name} :
    (typeSpecs c names).children.length ≤ (nameNodes names).children.length ∧ (c.feat.luau = false → (typeSpecs c names).children = []) := by
  simp only [typeSpecs, nameNodes, vec, punct, Node.children, List.length_map]
  refine ⟨by split <;> simp, fun h => by simp [h]⟩

theorem attrs_fit {names : Punctuated Name} :
    (attrs c names).children.length ≤ (nameNodes names).children.length ∧ (c.feat.lua54 = false → (attrs c names).children = []) := by
  simp only [attrs, nameNodes, vec, punct, Node.children, List.length_map]
  refine ⟨by split <;> simp, fun h => by simp [h]⟩

theorem localNode_ty {l : TokRef} (hk : K l) (hi : is .kLocal l = true) {names : Punctuated Name} (h : PAll K [.comma] (Name.Ok c K) names) {equal : Option TokRef}
    (he : OptP (fun t => K t ∧ Term.Is (.sym (if c.feat.cfxlua then [.equal, .kIn] else [.equal])) t) equal) {es : Punctuated Node} (hes : PAll K [.comma] (WellTy c K (.cat .expr)) es) :
    WellTy c K (.cat .localAssignment) (localNode c l names equal es) := by
  have h1 := typeSpecs_ty (c := c) h
  have h2 := attrs_ty (c := c) h
  have h3 := nameNodes_ty h
  have h4 : ∀ {a b d}, annotationsFit .localAssignment [a, typeSpecs c names, nameNodes names, attrs c names, b, d] ∧ annotationsCompiled c.feat .localAssignment [a, typeSpecs c names, nameNodes names, attrs c names, b, d] :=
    ⟨⟨typeSpecs_fit.1, attrs_fit.1⟩, typeSpecs_fit.2, attrs_fit.2⟩
  unfold localNode
  ty_simp

theorem resQ_of_name {ts ts' : Toks} {r : Res Name} (h : NameQ c K ts r ts') : ResQ (Name.Ok c K) ts r ts' := by
  intro v hv
  rcases h with ⟨x, rfl, h1, h2⟩ | ⟨rfl, -⟩
  · cases hv; exact ⟨h1, h2⟩
  · cases hv

theorem wp_namesWithTypes (hs : RecOk c K n self) {ts : Toks} (hn : ts.length ≤ n + 1) {Q : Res (Punctuated Name) → Toks → Prop}
    (h1 : ∀ l ts', ts'.length < ts.length → PAll K [.comma] (Name.Ok c K) l → l.pairs ≠ [] → Q (.value l) ts')
    (h2 : ∀ ts', ts'.length ≤ ts.length → Q .notFound ts') : wp c K (oneOrMore (parseNameWithTypes self c) .comma) ts Q :=
  wp_oneOrMore (N := True) (fun _ hn => wp_mono (parseNameWithTypes_spec hs hn) fun _ _ _ h => resQ_of_name h) hn
    (wp_mono (parseNameWithTypes_spec hs hn) fun _ _ _ h => ⟨resQ_of_name h, fun _ => trivial⟩)
    (fun l ts' hl hp hne _ => h1 l ts' hl hp hne) fun ts' hl _ => h2 ts' hl

theorem wp_namesWithAttributes [Phantoms c K] (hs : RecOk c K n self) {ts : Toks} (hn : ts.length ≤ n + 1) {t : TokRef} (ht : Head ts t) (hi : t.isIdent = true)
    {Q : Res (Punctuated Name) → Toks → Prop}
    (h1 : ∀ l ts', ts'.length < ts.length → PAll K [.comma] (Name.Ok c K) l → l.pairs ≠ [] → Q (.value l) ts') :
    wp c K (oneOrMore (parseNameWithAttributes self c) .comma) ts Q := by
  refine wp_oneOrMore (N := False) (fun _ hn => wp_mono (parseNameWithAttributes_spec hs hn) fun _ _ _ h => resQ_of_name h) hn
    (wp_mono (parseNameWithAttributes_spec hs hn) fun r ts' _ h => ⟨resQ_of_name h, fun hv => ?_⟩)
    (fun l ts' hl hp hne _ => h1 l ts' hl hp hne) fun _ _ h => h.elim
  rcases h with ⟨x, rfl, -⟩ | ⟨-, -, h⟩
  · exact hv x rfl
  · rw [h t ht] at hi; cases hi

theorem assigns {t : TokRef} (h : (assignSymbols c).any t.isSymbol = true) :
    Term.Is (.sym (if c.feat.cfxlua then [.equal, .kIn] else [.equal])) t := by
  rw [is_sym]
  exact h

theorem expectLocalAssignment_spec [Phantoms c K] (hs : RecOk c K n self) {l : TokRef} (hk : K l) (hil : is .kLocal l = true) {ts : Toks} (hn : ts.length ≤ n)
    {t : TokRef} (ht : Head ts t) (hi : t.isIdent = true) :
    wp c K (expectLocalAssignment self c l) ts (OptQ (WellTy c K (.cat .localAssignment))) := by
  unfold expectLocalAssignment
  refine wp_bind (wp_namesWithAttributes hs (by omega) ht hi fun names ts' hl hp hne => ?_)
  wsteps
  all_goals
    refine OptQ.some (localNode_ty hk hil hp ?_ ?_)
    · first | exact optP_none.2 trivial | exact optP_some.2 ⟨‹_›, assigns ‹_›⟩
    · first | assumption | exact .new

macro_rules | `(tactic| wspec) => `(tactic| (wp_head expectLocalAssignment; refine wp_opt (expectLocalAssignment_spec (by assumption) (by assumption) (by assumption) (by omega) (by assumption) (by assumption)) (fun _ _ _ _ => ?_) (fun _ _ => ?_)))

theorem localStmt_spec [Phantoms c K] (hs : RecOk c K n self) {ts : Toks} (hn : ts.length ≤ n + 1) {t : TokRef} (ht : Head ts t)
    (hi : is .kLocal t = true) : wp c K (localStmt self c) ts (StmtQ c K ts) := by
  unfold localStmt
  refine wp_bind (wp_take ht (by notEof) fun hk hl => stmtQ_of_val ?_ (by omega))
  wsteps
  all_goals sfin

/-! ## Loops -/

theorem wp_blockOrEmpty [Phantoms c K] (hs : RecOk c K n self) {name : String} {start : TokRef} (hk : K start) {ts : Toks} (hn : ts.length ≤ n)
    {Q : Blk × TokRef → Toks → Prop}
    (h : ∀ b t ts', ts'.length ≤ ts.length → BlkTy c K b → K t → is .kEnd t = true → Q (b, t) ts') : wp c K (blockOrEmpty self c name start) ts Q := by
  unfold blockOrEmpty
  wsteps
  · exact h _ _ _ (by omega) ‹_› ‹_› ‹_›
  · exact h _ _ _ (by omega) BlkTy.empty ‹_› ‹_›

macro_rules | `(tactic| wspec) => `(tactic| (wp_head blockOrEmpty; refine wp_blockOrEmpty (by assumption) (by assumption) (by omega) (fun _ _ _ _ _ _ _ => ?_)))

theorem numericForRest_spec [Phantoms c K] (hs : RecOk c K n self) {a e m : TokRef} {index : Name} {x y : Node} {step : Option (TokRef × Node)}
    (h1 : K a) (hi1 : is .kFor a = true) (h2 : index.Ok c K) (h3 : K e) (hi3 : is .equal e = true) (h4 : WellTy c K (.cat .expr) x) (h5 : K m)
    (hi5 : is .comma m = true) (h6 : WellTy c K (.cat .expr) y)
    (h7 : OptP (fun t => K t ∧ is .comma t = true) (step.map (·.1))) (h8 : OptP (WellTy c K (.cat .expr)) (step.map (·.2))) {ts : Toks} (hn : ts.length ≤ n) :
    wp c K (numericForRest self c a index e x m y step) ts (OptQ (WellTy c K (.cat .numericFor))) := by
  obtain ⟨h21, h22, h23⟩ := h2
  unfold numericForRest
  wsteps
  all_goals wfin

theorem expectNumericFor_spec [Phantoms c K] (hs : RecOk c K n self) {a : TokRef} {index : Name}
    (h1 : K a) (hi1 : is .kFor a = true) (h2 : index.Ok c K) {ts : Toks} (hn : ts.length ≤ n) {t : TokRef} (ht : Head ts t) (hi : is .equal t = true) :
    wp c K (expectNumericFor self c a index) ts (OptQ (WellTy c K (.cat .numericFor))) := by
  unfold expectNumericFor
  wsteps
  all_goals first
    | wfin
    | exact numericForRest_spec hs h1 hi1 h2 ‹_› ‹_› ‹_› ‹_› ‹_› ‹_› (optP_some.2 ⟨‹_›, ‹_›⟩) (optP_some.2 ‹_›) (by omega)
    | exact numericForRest_spec hs h1 hi1 h2 ‹_› ‹_› ‹_› ‹_› ‹_› ‹_› (optP_none.2 trivial) (optP_none.2 trivial) (by omega)

theorem genericForNode_ty {f i d e : TokRef} {names : Punctuated Name} {es : Punctuated Node} {b : Blk} (h1 : K f) (hi1 : is .kFor f = true)
    (h2 : PAll K [.comma] (Name.Ok c K) names) (h3 : K i) (hi3 : is .kIn i = true) (h4 : PAll K [.comma] (WellTy c K (.cat .expr)) es) (h5 : K d)
    (hi5 : is .kDo d = true) (h6 : BlkTy c K b) (h7 : K e) (hi7 : is .kEnd e = true) :
    WellTy c K (.cat .genericFor) (genericForNode c f names i es d b e) := by
  have := typeSpecs_ty (c := c) h2
  have := nameNodes_ty h2
  have h4 : ∀ {a b d e f g}, annotationsFit .genericFor [a, nameNodes names, b, d, e, f, g, typeSpecs c names] ∧ annotationsCompiled c.feat .genericFor [a, nameNodes names, b, d, e, f, g, typeSpecs c names] :=
    ⟨typeSpecs_fit.1, typeSpecs_fit.2⟩
  unfold genericForNode
  ty_simp

theorem genericFor_spec [Phantoms c K] (hs : RecOk c K n self) {f : TokRef} (hk : K f) (hi : is .kFor f = true) {names : Punctuated Name}
    (hp : PAll K [.comma] (Name.Ok c K) names) {ts : Toks} (hn : ts.length ≤ n) :
    wp c K (genericFor self c f names) ts (OptQ (WellTy c K (.cat .genericFor))) := by
  unfold genericFor
  wsteps
  all_goals first
    | wfin
    | exact OptQ.some (genericForNode_ty ‹_› ‹_› ‹_› ‹_› ‹_› ‹_› ‹_› ‹_› BlkTy.empty ‹_› ‹_›)
    | exact OptQ.some (genericForNode_ty ‹_› ‹_› ‹_› ‹_› ‹_› ‹_› ‹_› ‹_› ‹_› ‹_› ‹_›)

theorem expectFor_spec [Phantoms c K] (hs : RecOk c K n self) {f : TokRef} (hk : K f) (hi : is .kFor f = true) {ts : Toks} (hn : ts.length ≤ n) :
    wp c K (expectFor self c f) ts (ValQ (StmtOk c K)) := by
  unfold expectFor
  refine wp_bind (wp_namesWithTypes hs (by omega) (fun names ts' hl hp hne => ?_) fun ts' hl => ?_)
  · dsimp only
    refine wp_bind (wp_current (fun t ht hkt => ?_) fun _ => wp_pure .moved)
    dsimp only
    split
    · exact absurd ‹_› hne
    · rename_i p hpp
      refine wp_ite (fun he => ?_) fun _ => ?_
      · refine wp_bind (wp_opt (expectNumericFor_spec hs hk hi (hp p (by simp [hpp])).1 (by omega) ht he) (fun _ _ _ _ => ?_) fun _ _ => ?_)
        all_goals wsteps; sfin
      · refine wp_bind (wp_opt (genericFor_spec hs hk hi hp (by omega)) (fun _ _ _ _ => ?_) fun _ _ => ?_)
        all_goals wsteps; sfin
    · refine wp_bind (wp_opt (genericFor_spec hs hk hi hp (by omega)) (fun _ _ _ _ => ?_) fun _ _ => ?_)
      all_goals wsteps; sfin
  · wsteps
    sfin

theorem wp_newDo [Phantoms c K] {b : Node} (hb : WellTy c K (.cat .block) b) {ts : Toks} {Q : Node → Toks → Prop}
    (h : ∀ v, WellTy c K (.cat .doBlock) v → Q v ts) : wp c K (newDo c b) ts Q := by
  unfold newDo
  wsteps
  refine h _ ?_
  ty_simp

macro_rules | `(tactic| wspec) => `(tactic| (wp_head newDo; refine wp_newDo (wellTy_blk.2 (by assumption)) (fun _ _ => ?_)))

theorem expectRepeat_spec [Phantoms c K] (hs : RecOk c K n self) {f : TokRef} (hk : K f) (hi : is .kRepeat f = true) {ts : Toks} (hn : ts.length ≤ n) :
    wp c K (expectRepeat self c f) ts (ValQ (StmtOk c K)) := by
  unfold expectRepeat
  wsteps
  all_goals sfin

theorem wp_newWhile [Phantoms c K] {e : Node} (he : WellTy c K (.cat .expr) e) {ts : Toks} {Q : Node → Toks → Prop}
    (h : ∀ v, WellTy c K (.cat .whileBlock) v → Q v ts) : wp c K (newWhile c e) ts Q := by
  unfold newWhile
  wsteps
  refine h _ ?_
  ty_simp

macro_rules | `(tactic| wspec) => `(tactic| (wp_head newWhile; refine wp_newWhile (by assumption) (fun _ _ => ?_)))

theorem expectWhile_spec [Phantoms c K] (hs : RecOk c K n self) {f : TokRef} (hk : K f) (hi : is .kWhile f = true) {ts : Toks} (hn : ts.length ≤ n) :
    wp c K (expectWhile self c f) ts (OptQ (WellTy c K (.cat .whileBlock))) := by
  unfold expectWhile
  wsteps
  all_goals wfin

macro_rules | `(tactic| wspec) => `(tactic| (wp_head expectWhile; refine wp_opt (expectWhile_spec (by assumption) (by assumption) (by assumption) (by omega)) (fun _ _ _ _ => ?_) (fun _ _ => ?_)))

/-! ## `if` -/

theorem wp_newIf [Phantoms c K] {e p : Node} (he : WellTy c K (.cat .expr) e) (hp : WellTy c K (.opt (.vec (.cat .elseIf))) p) {ts : Toks}
    {Q : Node → Toks → Prop} (h : ∀ v, WellTy c K (.cat .ifBlock) v → Q v ts) : wp c K (newIf c e p) ts Q := by
  unfold newIf
  wsteps
  refine h _ ?_
  ty_simp

macro_rules | `(tactic| wspec) => `(tactic| (wp_head newIf; refine wp_newIf (by assumption) (by first | exact wellTy_none.2 trivial | exact wellTy_optVec (by assumption)) (fun _ _ => ?_)))

/-- The parts of an `if` are well typed. -/
def ElseIfs.Ok (c : Cfg) (K : TokRef → Prop) : ElseIfs → Prop
  | .done l => AllP (WellTy c K (.cat .elseIf)) l
  | .unfinished n => WellTy c K (.cat .ifBlock) n

theorem elseIfLoop_spec [Phantoms c K] (hs : RecOk c K n self) {e : Node} (he : WellTy c K (.cat .expr) e) : ∀ (m : Nat) (ts : Toks) (l : List Node),
    ts.length < m → ts.length ≤ n → AllP (WellTy c K (.cat .elseIf)) l →
    wp c K (elseIfLoop self c e m l) ts (fun r _ => r.Ok c K)
  | 0, _, _, hm, _, _ => by omega
  | m + 1, ts, l, hm, hn, hl => by
    have ih := elseIfLoop_spec hs he m
    unfold elseIfLoop
    wsteps
    · exact ih _ _ (by omega) (by omega) (by ty_simp)
    all_goals assumption

theorem elsePart_spec (hs : RecOk c K n self) {ts : Toks} (hn : ts.length ≤ n) :
    wp c K (elsePart self) ts (fun r _ => OptP (fun t => K t ∧ is .kElse t = true) (r.map (·.1)) ∧ OptP (WellTy c K (.cat .block)) (r.map fun p => p.2.node)) := by
  unfold elsePart
  wsteps
  all_goals
    simp only [Option.map_some, Option.map_none]
    constructor <;> ty_simp

theorem expectIf_spec [Phantoms c K] (hs : RecOk c K n self) {f : TokRef} (hk : K f) (hi : is .kIf f = true) {ts : Toks} (hn : ts.length ≤ n) :
    wp c K (expectIf self c f) ts (OptQ (WellTy c K (.cat .ifBlock))) := by
  unfold expectIf
  wsteps
  all_goals first
    | wfin
    | skip
  refine wp_mono (elseIfLoop_spec hs ‹_› _ _ _ (by omega) (by omega) (allP_nil.2 trivial)) fun r ts' hl hr => ?_
  cases r with
  | done parts =>
    have := wellTy_optVec (K := K) hr
    refine wp_bind (wp_mono (elsePart_spec hs (by omega)) fun r ts'' hl' hr' => ?_)
    obtain ⟨h1, h2⟩ := hr'
    wsteps
    all_goals wfin
  | unfinished m => exact wp_pure (.some hr)

macro_rules | `(tactic| wspec) => `(tactic| (wp_head expectIf; refine wp_opt (expectIf_spec (by assumption) (by assumption) (by assumption) (by omega)) (fun _ _ _ _ => ?_) (fun _ _ => ?_)))

/-! ## Statements that start with an expression -/

theorem compoundOp_of_is {t : TokRef} (h : isCompound c t = true) : ∃ o, compoundOp c t = some o := by
  have hl : c.luau = true → c.feat.luau = true := fun h => (has_iff.1 h).1
  have hc : c.cfxlua = true → c.feat.cfxlua = true := fun h => (has_iff.1 h).1
  unfold isCompound at h
  simp only [Bool.or_eq_true, Bool.and_eq_true] at h
  have key : ∀ s, is s t = true → ∀ x, is x t = decide (x = s) := by
    intro s hs x
    have : t.token.type = .symbol s := by simpa [is, TokRef.isSymbol] using hs
    simp only [is, TokRef.isSymbol, this]
    by_cases hx : x = s
    · subst hx; simp
    · simp [hx, Ne.symm hx]
  unfold compoundOp
  rcases h with ⟨h0, ((((((h | h) | h) | h) | h) | h) | h) | h⟩ | ⟨h0, (((((((h | h) | h) | h) | h) | h) | h) | h) | h⟩
  all_goals
    first
      | (rw [hl h0]; simp only [key _ h]; cases c.feat.cfxlua <;> exact ⟨_, rfl⟩)
      | (rw [hc h0]; simp only [key _ h]; cases c.feat.luau <;> exact ⟨_, rfl⟩)

theorem notEof_compound {t : TokRef} (h : isCompound c t = true) : t.isEof = false := by
  unfold isCompound at h
  simp only [Bool.or_eq_true, Bool.and_eq_true] at h
  cases he : t.isEof
  · rfl
  · have := isEof_eq.1 he
    simp [is, TokRef.isSymbol, this] at h

theorem compound_available {t : TokRef} (h : isCompound c t = true) : (c.luau || c.cfxlua) = true := by
  unfold isCompound at h
  rcases Bool.or_eq_true_iff.1 h with h | h
  · rw [(Bool.and_eq_true_iff.1 h).1]; rfl
  · rw [(Bool.and_eq_true_iff.1 h).1, Bool.or_true]

theorem ite_some {b : Bool} {a o : α} {r : Option α} (h : (if b = true then some a else r) = some o) : b = true ∧ a = o ∨ r = some o := by
  cases b <;> simp_all

theorem compoundOp_is {t : TokRef} {o : CompoundOp} (h : compoundOp c t = some o) : is (compoundSymbol o) t = true := by
  unfold compoundOp at h
  repeat (obtain ⟨hb, rfl⟩ | h := ite_some h; · first | exact hb | exact (Bool.and_eq_true_iff.1 hb).2)
  cases h

theorem parseCompound_spec (hs : RecOk c K n self) {v : Node} (hv : WellTy c K (.cat .var) v) {ts : Toks} (hn : ts.length ≤ n + 1)
    {t : TokRef} (ht : Head ts t) (hi : isCompound c t = true) : wp c K (parseCompound self c v) ts (ValQ (StmtOk c K)) := by
  have := notEof_compound hi
  have ha := compound_available hi
  obtain ⟨o, ho⟩ := compoundOp_of_is hi
  have hj := compoundOp_is ho
  unfold parseCompound
  wsteps
  · rw [ho]
    wsteps
    sfin
  all_goals sfin

theorem varsLoop_spec [Phantoms c K] (hs : RecOk c K n self) : ∀ (m : Nat) (ts : Toks) (vars : Punctuated Node), ts.length < m →
    ts.length ≤ n + 1 → PAll K [.comma] (WellTy c K (.cat .var)) vars → vars.pairs ≠ [] → NoTrail vars →
    wp c K (varsLoop self c m vars) ts (OptQ (PAll K [.comma] (WellTy c K (.cat .var))))
  | 0, _, _, hm, _, _, _, _ => by omega
  | m + 1, ts, vars, hm, hn, hp, hne, ht => by
    have ih := varsLoop_spec hs m
    unfold varsLoop
    wsteps
    · rename_i comma _ hk _ _ p l ts' hl hpre hall
      have push : wp c K (match vars.pushPunctuated (varNode p l) comma with
          | .returned _ vars => varsLoop self c m vars
          | .panicked _ => panic) ts' (OptQ (PAll K [.comma] (WellTy c K (.cat .var)))) := by
        obtain ⟨q, hq, h1, h2, h3⟩ := pushPunctuated_ok hp hne ht (varNode_ty hpre hall) hk (by sep)
        rw [hq]
        exact ih _ _ (by omega) (by omega) h1 h2 h3
      split
      · rename_i cs hlast
        have hty := hall _ (List.mem_of_getLast? hlast)
        refine wp_bind (wp_lastToken (tokens_ne _ _ rfl hty.1) ⟨_, hty.1⟩ fun t hkt => ?_)
        exact wp_bind (wp_tokenError hkt (wp_pure (.some hp)))
      · exact push
    all_goals first
      | exact OptQ.none
      | exact OptQ.some hp

theorem assignment_spec [Phantoms c K] (hs : RecOk c K n self) {v : Node} (hv : WellTy c K (.cat .var) v) {ts : Toks} (hn : ts.length ≤ n) :
    wp c K (assignment self c v) ts (ValQ (StmtOk c K)) := by
  have := PAll.new (K := K) (seps := [.comma]) (P := WellTy c K (.cat .expr))
  unfold assignment
  wsteps
  refine wp_opt (varsLoop_spec hs _ _ _ (by omega) (by omega) (PAll.new.push_end hv) (by simp [Punctuated.push]) noTrail_one)
    (fun vars ts' hl hvs => ?_) fun _ _ => ?_
  all_goals wsteps
  all_goals sfin

theorem typeDeclarationRest_spec [Phantoms c K] (hs : RecOk c K n self) (hl : c.luau = true) {t b : TokRef} (ht : K t) (hit : isNamed c!"type" t = true) (hb : K b) (hib : b.isIdent = true) {g : Option Node}
    (hg : OptP (WellTy c K (.cat .genericDecl)) g) {ts : Toks} (hn : ts.length ≤ n) :
    wp c K (typeDeclarationRest self c t b g) ts (OptQ (WellTy c K (.cat .typeDecl))) := by
  unfold typeDeclarationRest
  wsteps
  all_goals wfin

theorem expectTypeDeclaration_spec [Phantoms c K] (hs : RecOk c K n self) (hl : c.luau = true) {t : TokRef} (ht : K t) (hit : isNamed c!"type" t = true) {ts : Toks}
    (hn : ts.length ≤ n) : wp c K (expectTypeDeclaration self c t) ts (OptQ (WellTy c K (.cat .typeDecl))) := by
  unfold expectTypeDeclaration
  wsteps
  all_goals first
    | wfin
    | exact typeDeclarationRest_spec hs hl ht hit ‹_› ‹_› (optP_none.2 trivial) (by omega)
    | exact typeDeclarationRest_spec hs hl ht hit ‹_› ‹_› (optP_some.2 ‹_›) (by omega)

macro_rules | `(tactic| wspec) => `(tactic| (wp_head expectTypeDeclaration; refine wp_opt (expectTypeDeclaration_spec (by assumption) (by assumption) (by assumption) (by assumption) (by omega)) (fun _ _ _ _ => ?_) (fun _ _ => ?_)))

theorem expectTypeFunction_spec [Phantoms c K] (hs : RecOk c K n self) {t f : TokRef} (ht : K t) (hit : isNamed c!"type" t = true) (hf : K f) (hif : is .kFunction f = true) {ts : Toks}
    (hn : ts.length ≤ n) : wp c K (expectTypeFunction self c t f) ts (OptQ (WellTy c K (.cat .typeFunction))) := by
  unfold expectTypeFunction
  wsteps
  all_goals wfin

macro_rules | `(tactic| wspec) => `(tactic| (wp_head expectTypeFunction; refine wp_opt (expectTypeFunction_spec (by assumption) (by assumption) (by assumption) (by assumption) (by assumption) (by omega)) (fun _ _ _ _ => ?_) (fun _ _ => ?_)))

theorem typeStmt_spec [Phantoms c K] (hs : RecOk c K n self) (hl : c.luau = true) {t : TokRef} (ht : K t) (hit : isNamed c!"type" t = true) {ts : Toks}
    (hn : ts.length ≤ n) : wp c K (typeStmt self c t) ts (ValQ (StmtOk c K)) := by
  unfold typeStmt
  wsteps
  all_goals sfin

theorem exportStmt_spec [Phantoms c K] (hs : RecOk c K n self) (hl : c.luau = true) {t : TokRef} (ht : K t) (hit : isNamed c!"export" t = true) {ts : Toks}
    (hn : ts.length ≤ n) : wp c K (exportStmt self c t) ts (ValQ (StmtOk c K)) := by
  unfold exportStmt
  wsteps
  all_goals sfin

theorem contextual_spec [Phantoms c K] (hs : RecOk c K n self) {p : Pre} (hp : p.Ok c K) {l : List Node} {t : TokRef} (ht : K t) {ts : Toks}
    (hn : ts.length ≤ n) : wp c K (contextual self c p l t) ts (ValQ (StmtOk c K)) := by
  unfold contextual
  split
  · rename_i token hl
    obtain ⟨hp, hi⟩ : K token ∧ _ := hp
    refine wp_ite (fun h => exportStmt_spec hs hl hp h hn) fun _ => wp_ite (fun h => typeStmt_spec hs hl hp h hn) fun _ => ?_
    wsteps
    all_goals sfin
  · wsteps
    all_goals sfin

theorem expressionStmt_spec [Phantoms c K] (hs : RecOk c K n self) {ts : Toks} (hn : ts.length ≤ n + 1) {t : TokRef} (ht : Head ts t)
    (hp : startsPrefix t = true) : wp c K (expressionStmt self c) ts (StmtQ c K ts) := by
  unfold expressionStmt
  refine wp_bind (wp_prefixAndSuffixes hs hn (fun p l ts' hl hpre hall => ?_) (fun ts' hl => wp_pure ⟨fun v hv => (by cases hv), fun _ => hl⟩)
    fun h => ?_)
  · refine stmtQ_of_val ?_ hl
    have := callNode_ty hpre hall
    wsteps
    · sfin
    · exact parseCompound_spec hs (varNode_ty hpre hall) (by omega) ‹_› ‹_›
    · exact assignment_spec hs (varNode_ty hpre hall) (by omega)
    · exact contextual_spec hs hpre ‹_› (by omega)
    · sfin
  · rw [h t ht] at hp; cases hp

/-! ## `goto`, labels and attributes -/

theorem gotoStmt_spec {ts : Toks} {t : TokRef} (ht : Head ts t) (hi : is .kGoto t = true) : wp c K (gotoStmt c) ts (StmtQ c K ts) := by
  refine wp_good fun hg => ?_
  have hen := (hg.head ht).2.of hi
  have hv : (c.lua52 || c.luajit) = true := by
    unfold Enabled at hen
    rw [show introducedBy Symbol.kGoto.text = [Ver.lua52, Ver.luajit] by decide] at hen
    simpa using hen
  unfold gotoStmt
  rw [hv]
  refine wp_ite_true (wp_bind (wp_take ht (by notEof) fun hk hl => stmtQ_of_val ?_ (by omega)))
  wsteps
  all_goals sfin

theorem labelStmt_spec [Phantoms c K] (hv : (c.lua52 || c.luajit) = true) {ts : Toks} {t : TokRef} (ht : Head ts t) (hi : is .twoColons t = true) :
    wp c K (labelStmt c) ts (StmtQ c K ts) := by
  unfold labelStmt
  refine wp_bind (wp_take ht (by notEof) fun hk hl => stmtQ_of_val ?_ (by omega))
  wsteps
  · sfin
  · exact wp_makeLabel (by simpa using hv) fun _ _ _ => wp_pure (by sfin)
  all_goals sfin

theorem attributedStmt_spec [Phantoms c K] (hs : RecOk c K n self) (hl : c.luau = true) {ts : Toks} (hn : ts.length ≤ n + 1) {t : TokRef}
    (ht : Head ts t) (ha : is .atSign t = true) : wp c K (attributedStmt self c) ts (StmtQ c K ts) := by
  unfold attributedStmt
  refine wp_bind (wp_mono (parseAttributes_len hl ht ha) fun r ts' _ hr => stmtQ_of_val ?_ hr.2)
  cases r with
  | value as =>
    have := hr.1 as rfl
    have := hr.2
    wsteps
    all_goals sfin
  | moved => exact wp_pure .moved
  | notFound => exact wp_pure .moved

/-! ## Statements and blocks -/

theorem doStmt_spec [Phantoms c K] (hs : RecOk c K n self) {ts : Toks} (hn : ts.length ≤ n + 1) {t : TokRef} (ht : Head ts t)
    (hi : is .kDo t = true) : wp c K (doStmt self c) ts (StmtQ c K ts) := by
  unfold doStmt
  refine wp_bind (wp_take ht (by notEof) fun hk hl => stmtQ_of_val ?_ (by omega))
  wsteps
  all_goals sfin

theorem StmtQ.notFound {ts ts' : Toks} : StmtQ c K ts .notFound ts' := ⟨nofun, nofun⟩

theorem parseStmt_spec [Phantoms c K] (hs : RecOk c K n self) {ts : Toks} (hn : ts.length ≤ n + 1) :
    wp c K (parseStmt self c) ts (StmtQ c K ts) := by
  unfold parseStmt
  refine wp_bind (wp_current (fun t ht hk => ?_) fun _ => wp_pure .notFound)
  refine wp_ite (fun h => localStmt_spec hs hn ht h) fun _ => ?_
  refine wp_ite (fun h => ?_) fun _ => ?_
  · exact wp_bind (wp_take ht (by notEof) fun hk hl => stmtQ_of_val (expectFor_spec hs hk h (by omega)) (by omega))
  refine wp_ite (fun h => doStmt_spec hs hn ht h) fun _ => ?_
  refine wp_ite (fun h => ?_) fun _ => ?_
  · refine wp_bind (wp_take ht (by notEof) fun hk hl => stmtQ_of_val ?_ (by omega))
    wsteps
    all_goals sfin
  refine wp_ite (fun h => ?_) fun _ => ?_
  · refine wp_bind (wp_take ht (by notEof) fun hk hl => stmtQ_of_val ?_ (by omega))
    wsteps
    all_goals sfin
  refine wp_ite (fun h => ?_) fun _ => ?_
  · exact wp_bind (wp_take ht (by notEof) fun hk hl => stmtQ_of_val (expectRepeat_spec hs hk h (by omega)) (by omega))
  refine wp_ite (fun h => ?_) fun _ => ?_
  · refine wp_bind (wp_take ht (by notEof) fun hk hl => stmtQ_of_val ?_ (by omega))
    wsteps
    all_goals sfin
  refine wp_ite (fun h => expressionStmt_spec hs hn ht h) fun _ => ?_
  refine wp_ite (fun h => gotoStmt_spec ht (Bool.and_eq_true_iff.1 h).2) fun _ => ?_
  refine wp_ite (fun h => labelStmt_spec (Bool.and_eq_true_iff.1 h).1 ht (Bool.and_eq_true_iff.1 h).2) fun _ => ?_
  refine wp_ite (fun h => attributedStmt_spec hs (Bool.and_eq_true_iff.1 h).1 hn ht (Bool.and_eq_true_iff.1 h).2) fun _ => ?_
  exact wp_pure .notFound

theorem wp_parseLastStmt (hs : RecOk c K n self) {ts : Toks} (hn : ts.length ≤ n + 1) {Q : Res (Node × Option TokRef) → Toks → Prop}
    (h1 : ∀ v ts', ts'.length < ts.length → WellTy c K (.cat .lastStmt) v.1 ∧ OptP (fun t => K t ∧ is .semicolon t = true) v.2 → Q (.value v) ts')
    (h2 : Q .notFound ts) : wp c K (parseLastStmt self) ts Q := by
  have := PAll.new (K := K) (seps := [.comma]) (P := WellTy c K (.cat .expr))
  unfold parseLastStmt
  wsteps
  all_goals first
    | exact h2
    | (refine h1 _ _ (by omega) ⟨?_, ?_⟩ <;> first | (unfold returnNode; ty_simp; done) | (ty_simp; done) |
        (have : is .kBreak _ = true := (Bool.or_eq_true_iff.1 (by assumption)).resolve_left (by assumption); ty_simp))

/-- The result of the loop of `parse_block` with statements `l` before it. -/
def LoopQ (c : Cfg) (K : TokRef → Prop) (l : List (Node × Option TokRef)) (ts : Toks) (r : Res Blk) (ts' : Toks) : Prop :=
  (∀ b, r = .value b → BlkTy c K b ∧ (l = [] → b.stmts ≠ [] → ts'.length < ts.length)) ∧ r ≠ .notFound ∧
    (r = .moved → ts'.length < ts.length)

theorem blockEnd_spec (hs : RecOk c K n self) {l : List (Node × Option TokRef)} (hl : ∀ s ∈ l, WellTy c K (.cat .stmt) s.1 ∧ OptP (fun t => K t ∧ is .semicolon t = true) s.2)
    {ts ts0 : Toks} (hn : ts.length ≤ n + 1) : wp c K (blockEnd self l) ts (LoopQ c K l ts0) := by
  unfold blockEnd
  refine wp_bind (wp_parseLastStmt hs hn (fun v ts' h hv => wp_pure ⟨fun b hb => ?_, nofun, nofun⟩) (wp_pure ⟨fun b hb => ?_, nofun, nofun⟩))
  · cases hb; exact ⟨⟨hl, fun s hs => by cases hs; exact hv⟩, fun h h' => absurd h h'⟩
  · cases hb; exact ⟨⟨hl, nofun⟩, fun h h' => absurd h h'⟩

theorem blockLoop_spec [Phantoms c K] (hs : RecOk c K n self) : ∀ (m : Nat) (ts : Toks) (l : List (Node × Option TokRef)), ts.length < m →
    ts.length ≤ n + 1 → (∀ s ∈ l, WellTy c K (.cat .stmt) s.1 ∧ OptP (fun t => K t ∧ is .semicolon t = true) s.2) → wp c K (blockLoop self c m l) ts (LoopQ c K l ts)
  | 0, _, _, hm, _, _ => by omega
  | m + 1, ts, l, hm, hn, hl => by
    have ih := blockLoop_spec hs m
    unfold blockLoop
    refine wp_bind (wp_mono (parseStmt_spec hs hn) fun r ts' hl' hr => ?_)
    cases r with
    | value v =>
      obtain ⟨hv, hlt⟩ := hr.1 v rfl
      cases v with
      | stmt s =>
        replace hv : WellTy c K _ _ := hv
        have step : ∀ o ts'', ts''.length ≤ ts'.length → OptP (fun t => K t ∧ is .semicolon t = true) o → wp c K (blockLoop self c m (l ++ [(s, o)])) ts'' (LoopQ c K l ts) := by
          intro o ts'' h ho
          refine wp_mono (ih _ _ (by omega) (by omega) fun x hx => ?_) fun r ts2 h2 hr => ⟨fun b hb => ⟨(hr.1 b hb).1, fun _ _ => by omega⟩,
            hr.2.1, fun _ => by omega⟩
          rcases List.mem_append.1 hx with hx | hx
          · exact hl x hx
          · simp only [List.mem_singleton] at hx; subst hx; exact ⟨hv, ho⟩
        refine wp_bind (wp_consumeIf (fun t _ hk hi h => step _ _ (by omega) (optP_some.2 ⟨hk, hi⟩)) fun _ => step _ _ (by omega) (optP_none.2 trivial))
      | last s =>
        replace hv : WellTy c K _ _ := hv
        refine wp_bind (wp_consumeIf (fun t _ hk hi h => wp_pure ⟨fun b hb => ?_, nofun, nofun⟩) fun _ => wp_pure ⟨fun b hb => ?_, nofun, nofun⟩)
        · cases hb; exact ⟨⟨hl, fun s hs => by cases hs; exact ⟨hv, optP_some.2 ⟨hk, hi⟩⟩⟩, fun _ _ => by omega⟩
        · cases hb; exact ⟨⟨hl, fun s hs => by cases hs; exact ⟨hv, optP_none.2 trivial⟩⟩, fun _ _ => by omega⟩
    | moved =>
      have := hr.2 rfl
      refine wp_ite (fun _ => wp_pure ⟨nofun, nofun, fun _ => this⟩) fun _ => blockEnd_spec hs hl (by omega)
    | notFound => exact blockEnd_spec hs hl (by omega)

theorem parseBlock_spec [Phantoms c K] (hs : RecOk c K n self) {ts : Toks} (hn : ts.length ≤ n + 1) :
    wp c K (parseBlock self c) ts (BlockQ c K ts) :=
  wp_bind (wp_fuel (wp_mono (blockLoop_spec hs _ _ _ (by omega) hn nofun) fun _ _ _ h =>
    ⟨fun b hb => ⟨(h.1 b hb).1, (h.1 b hb).2 rfl⟩, h.2⟩))

end FM.Parser
