import Verif.Proofs.Parser.Format

/-! Helper lemmas: stepping through two runs of a parser function. -/

namespace FM.Parser.Format
open FM.Spec FM.Parser

variable {α β : Type}

/-! ## What follows from equality up to trivia and positions -/

theorem isEmpty_of_strip [Strip α] {l m : List α} (h : strip l = strip m) : l.isEmpty = m.isEmpty := by
  rw [← isEmpty_strip l, h, isEmpty_strip]
theorem length_of_strip [Strip α] {l m : List α} (h : strip l = strip m) : l.length = m.length := by
  rw [← length_strip l, h, length_strip]
theorem isSome_of_strip [Strip α] {l m : Option α} (h : strip l = strip m) : l.isSome = m.isSome := by
  rw [← isSome_strip l, h, isSome_strip]
theorem isNone_of_strip [Strip α] {l m : Option α} (h : strip l = strip m) : l.isNone = m.isNone := by
  cases l <;> cases m <;> simp at h ⊢
theorem pisEmpty_of_strip [Strip α] {l m : Punctuated α} (h : strip l = strip m) : l.isEmpty = m.isEmpty := by
  rw [← pisEmpty_strip l, h, pisEmpty_strip]
theorem lastIsCall_of_strip {l m : List Node} (h : strip l = strip m) : lastIsCall l = lastIsCall m := by
  rw [← lastIsCall_strip l, h, lastIsCall_strip]
theorem hasKind_of_strip {k : Kind} {l m : Node} (h : strip l = strip m) : hasKind k l = hasKind k m := by
  rw [← hasKind_strip k l, h, hasKind_strip]

theorem singleType_of_strip {l m : Punctuated Arg} (h : strip l = strip m) : singleType l = singleType m := by
  have : ∀ l : Punctuated Arg, singleType (strip l) = singleType l := by
    intro l
    unfold singleType
    rw [← strip_proj_pairs]
    match l.pairs with
    | [] => rfl
    | [p] => simp only [strip_cons, strip_nil, ← strip_pvalue, ← strip_proj_atype, hasKind_strip]
    | _ :: _ :: _ => rfl
  rw [← this l, h, this]
theorem named_of_strip {l m : Punctuated Arg} (h : strip l = strip m) :
    (l.pairs.any fun p => p.value.name.isSome) = m.pairs.any fun p => p.value.name.isSome := by
  have : ∀ l : List (Pair Arg), ((strip l).any fun p => p.value.name.isSome) = l.any fun p => p.value.name.isSome := by
    intro l
    induction l with
    | nil => rfl
    | cons a l ih => simp only [strip_cons, List.any_cons, ih, ← strip_pvalue, ← strip_proj_aname, isSome_strip]
  rw [← this, strip_proj_pairs, h, ← strip_proj_pairs, this]
theorem isUnion_of_strip {l m : Suffix} (h : strip l = strip m) : l.isUnion = m.isUnion :=
  congrArg (a₁ := strip l) (a₂ := strip m) (·.isUnion) h
theorem isIntersection_of_strip {l m : Suffix} (h : strip l = strip m) : l.isIntersection = m.isIntersection :=
  congrArg (a₁ := strip l) (a₂ := strip m) (·.isIntersection) h

@[simp] theorem strip_mapType (l : List (Pair Arg)) : strip (l.map (Pair.map Arg.type)) = (strip l).map (Pair.map Arg.type) :=
  strip_map (fun p => strip_pmap strip_proj_atype p) l
@[simp] theorem strip_mapNode (l : List (Pair Arg)) : strip (l.map (Pair.map Arg.node)) = (strip l).map (Pair.map Arg.node) :=
  strip_map (fun p => strip_pmap strip_anode p) l

theorem getLast_of_strip [Strip α] {l m : List α} (h : strip l = strip m) : strip l.getLast? = strip m.getLast? := by
  rw [← strip_getLast, h, strip_getLast]

/-! ## Functions that depend on the first token -/

/-- The first remaining token. -/
def First (ts : Toks) (t : TokRef) : Prop := ∃ rest, ts = .ok t :: rest ∨ ∃ es, ts = .recovered t es :: rest

/-- The same, when the first tokens are known. -/
def SimAt [Strip α] (t u : TokRef) (p q : M α) : Prop :=
  ∀ ts ts' : Toks, strip ts = strip ts' → First ts t → First ts' u → stripRun (p ts) = stripRun (q ts')

theorem SimAt.of [Strip α] {t u : TokRef} {p q : M α} (h : Sim p q) : SimAt t u p q := fun ts ts' hts _ _ => h ts ts' hts

theorem SimAt.ite [Strip α] {t u : TokRef} {c d : Prop} [Decidable c] [Decidable d] {p q p' q' : M α} (hc : c ↔ d) (h1 : SimAt t u p p')
    (h2 : SimAt t u q q') : SimAt t u (if c then p else q) (if d then p' else q') := by
  by_cases h : c
  · rw [if_pos h, if_pos (hc.1 h)]; exact h1
  · rw [if_neg h, if_neg fun hd => h (hc.2 hd)]; exact h2

/-- Two runs with the same effect, followed by related functions. -/
theorem stripRun_bind [Strip α] [Strip β] {p q : M α} {f g : α → M β} {ts ts' : Toks} (h : stripRun (p ts) = stripRun (q ts'))
    (hf : ∀ r r', p ts = .ok r → q ts' = .ok r' → strip r.val = strip r'.val → strip r.toks = strip r'.toks →
      stripRun (f r.val r.toks) = stripRun (g r'.val r'.toks)) :
    stripRun ((p >>= f) ts) = stripRun ((q >>= g) ts') := by
  show stripRun (M.bind p f ts) = stripRun (M.bind q g ts')
  unfold M.bind
  cases hp : p ts <;> cases hq : q ts' <;> rw [hp, hq] at h <;> simp only [stripRun, Outcome.ok.injEq, Run.mk.injEq, reduceCtorEq] at h ⊢
  rename_i r r'
  obtain ⟨h2, h3, h4, h5⟩ := h
  have h6 := hf _ _ hp hq h2 h3
  unfold Run.andThen
  cases hp : f r.val r.toks <;> cases hq : g r'.val r'.toks <;> rw [hp, hq] at h6 <;>
    simp only [stripRun, Outcome.ok.injEq, Run.mk.injEq, reduceCtorEq] at h6 ⊢
  simp [h4, h5, h6]

theorem sim_current_bind [Strip β] {f g : Option TokRef → M β} (h : Sim (f none) (g none))
    (h' : ∀ t u, strip t = strip u → SimAt t u (f (some t)) (g (some u))) : Sim (current >>= f) (current >>= g) := by
  intro ts ts' hts
  refine stripRun_bind (sim_current ts ts' hts) fun r r' hr hr' hv ht => ?_
  have h1 : ∀ (ts : Toks) (r : Run (Option TokRef)), current ts = .ok r → ∀ t, r.val = some t → First r.toks t := by
    intro ts r hr t ht
    unfold current at hr
    split at hr <;> cases hr <;> simp at ht <;> subst ht
    · exact ⟨_, .inl rfl⟩
    · exact ⟨_, .inr ⟨_, rfl⟩⟩
  obtain ⟨v, l, e, s⟩ := r
  obtain ⟨v', l', e', s'⟩ := r'
  cases v <;> cases v' <;> simp only [strip_none, strip_some, reduceCtorEq, Option.some.injEq] at hv
  · exact h _ _ ht
  · exact h' _ _ hv _ _ ht (h1 _ _ hr _ rfl) (h1 _ _ hr' _ rfl)

theorem SimAt.consume_bind [Strip β] {t u : TokRef} {f g : Res TokRef → M β} (h : Sim (f (.value t)) (g (.value u))) :
    SimAt t u (consume >>= f) (consume >>= g) := by
  intro ts ts' hts h1 h2
  refine stripRun_bind (sim_consume ts ts' hts) fun r r' hr hr' hv ht => ?_
  have h3 : ∀ (ts : Toks) (t : TokRef) (r : Run (Res TokRef)), First ts t → consume ts = .ok r → r.val = .value t := by
    rintro ts t r ⟨rest, rfl | ⟨es, rfl⟩⟩ hr <;> cases hr <;> rfl
  rw [h3 _ _ _ h1 hr, h3 _ _ _ h2 hr']
  exact h _ _ ht

theorem SimAt.take_bind [Strip β] {t u : TokRef} {f g : TokRef → M β} (h : Sim (f t) (g u)) : SimAt t u (take >>= f) (take >>= g) := by
  intro ts ts' hts h1 h2
  have h0 : Sim take take := sim_bind sim_consume fun _ _ h => sim_unwrap h
  refine stripRun_bind (h0 ts ts' hts) fun r r' hr hr' hv ht => ?_
  have h3 : ∀ (ts : Toks) (t : TokRef) (r : Run TokRef), First ts t → take ts = .ok r → r.val = t := by
    rintro ts t r ⟨rest, rfl | ⟨es, rfl⟩⟩ hr <;> cases hr <;> rfl
  rw [h3 _ _ _ h1 hr, h3 _ _ _ h2 hr']
  exact h _ _ ht

/-- A condition on tokens that only depends on the type. -/
def Blind (p q : TokRef → Bool) : Prop := ∀ t u : TokRef, t.token.type = u.token.type → p t = q u

/-- The functions available for recursive calls. -/
structure RecSim (r : Rec) : Prop where
  block : Sim r.block r.block
  expr : Sim r.expr r.expr
  primary : Sim r.primary r.primary
  climb : ∀ {a b : Node} (p : Nat), strip a = strip b → Sim (r.climb a p) (r.climb b p)
  type : Sim r.type r.type
  typeOrPack : Sim r.typeOrPack r.typeOrPack

/-- Unfold conditions on tokens. -/
macro "sim_cond" : tactic => `(tactic| first
  | with_reducible exact Iff.rfl
  | with_reducible rfl
  | with_reducible assumption
  | (simp only [is, TokRef.isSymbol, TokRef.isIdent, TokRef.isString, TokRef.isNumber, TokRef.isEof, isNamed, isCompound, startsUnary,
      BinOp.isRightAssociativeToken, Token.display, interpKind, BinOp.precedenceOfToken, BinOp.accept, *]; done))

theorem unaryMessage_of {t u : TokRef} (h : t.token.type = u.token.type) : unaryMessage t = unaryMessage u := by
  delta unaryMessage
  rw [show t.token.display = u.token.display from congrArg TokenType.display h]

theorem is_of {t u : TokRef} (h : t.token.type = u.token.type) (s : Symbol) : is s t = is s u := by simp only [is, TokRef.isSymbol, h]
theorem unaryOp_of {c : Cfg} {t u : TokRef} (h : t.token.type = u.token.type) : strip (unaryOp c t) = strip (unaryOp c u) := by
  simp only [unaryOp, is_of h]
theorem compoundOp_of {c : Cfg} {t u : TokRef} (h : t.token.type = u.token.type) : strip (compoundOp c t) = strip (compoundOp c u) := by
  simp only [compoundOp, is_of h]

/-- Compare values. -/
macro "sim_val" : tactic => `(tactic| first
  | with_reducible assumption
  | with_reducible rfl
  | (with_reducible refine unaryMessage_of ?_; assumption)
  | (with_reducible refine unaryOp_of ?_; assumption)
  | (with_reducible refine compoundOp_of ?_; assumption)
  | (intro t u h; sim_cond)
  | sim_cond
  | (simp [*]; done)
  | (refine congrArg strip ?_; sim_cond)
  | (refine getLast_of_strip ?_; simp [*]; done)
  | (split <;> simp [*]; done))

open Lean Elab Tactic Meta

/-- The facts that are added to every equality. -/
def factNames : List Lean.Name := [``type_of_strip, ``isEmpty_of_strip, ``isSome_of_strip, ``isNone_of_strip, ``pisEmpty_of_strip, ``lastIsCall_of_strip, ``singleType_of_strip, ``named_of_strip,
  ``isUnion_of_strip, ``isIntersection_of_strip]

/-- Take a hypothesis apart and add its consequences. -/
partial def digest (g : MVarId) (h : FVarId) : MetaM (List MVarId) := g.withContext do
  let ctx ← Simp.Context.mkDefault
  let ty ← instantiateMVars (← h.getType)
  if ty.isAppOf ``And then
    let gs ← g.cases h
    let mut out := []
    for s in gs do
      let a := s.fields[0]!.fvarId!
      let b := s.fields[1]!.fvarId!
      for g1 in ← digest s.mvarId a do
        -- the second part keeps its identity unless a variable was replaced
        let lctx := (← g1.getDecl).lctx
        if lctx.contains b then out := out ++ (← digest g1 b)
        else
          -- find the remaining hypothesis again
          out := out ++ [g1]
    return out
  let (r, _) ← simpLocalDecl g h ctx (simprocs := #[← Simp.getSimprocs])
  match r with
  | none => return []
  | some (h, g) => g.withContext do
    let ty ← instantiateMVars (← h.getType)
    if ty.isAppOf ``And then return ← digest g h
    if ty.isTrue then return [← g.tryClear h]
    if let some (_, a, b) := ty.eq? then
      if a.isFVar && b.isFVar then
        try
          let g' ← subst g h
          return [g']
        catch _ => pure ()
    let mut g := g
    for n in factNames do
      let g0 := g
      g ← g0.withContext do
        let p? ← observing? (mkAppM n #[mkFVar h])
        match p? with
        | some p => return (← g0.note `fact p).2
        | none => return g0
    return [g]

/-- Introduce two values and their equality. -/
def introPair (g : MVarId) : MetaM (List MVarId) := do
  let (_, g) ← g.introN 2
  let (h, g) ← g.intro1
  digest g h

/-- The constructor at the front. -/
def _root_.Lean.Expr.isConstructorApp?' (e : Expr) (env : Environment) : Option ConstructorVal :=
  match e.getAppFn with
  | .const n _ =>
    match env.find? n with
    | some (.ctorInfo v) => some v
    | _ => none
  | _ => none

/-- What a match is stuck on. -/
inductive Stuck where
  | vars (x y : FVarId)
  | same (e : Expr)
  | terms (a b : Expr)

/-- Find what a pair of discriminants is stuck on. -/
partial def findStuck (a b : Expr) : MetaM (Option Stuck) := do
  let a := a.consumeMData
  let b := b.consumeMData
  if a.isFVar && b.isFVar then
    let ty ← whnfR (← inferType a)
    if ty.isAppOf ``TokRef || ty.isAppOf ``Node || ty.isAppOf ``Cfg then return none
    if a == b then return some (.same a)
    return some (.vars a.fvarId! b.fvarId!)
  if let some ca := a.isConstructorApp?' (← getEnv) then
    if (b.isConstructorApp?' (← getEnv)).isSome then
      let as := a.getAppArgs
      let bs := b.getAppArgs
      for i in [ca.numParams:as.size] do
        if i < bs.size then
          if let some s ← findStuck as[i]! bs[i]! then return some s
      return none
  if a == b then return some (.same a)
  return some (.terms a b)

/-- Find the hypothesis that relates two variables. -/
def findEq (x y : FVarId) : MetaM (Option FVarId) := do
  for d in ← getLCtx do
    if let some (_, a, b) := (← instantiateMVars d.type).eq? then
      if a.isAppOf ``strip || a.isAppOf ``Strip.strip then
        if a.appArg! == mkFVar x && b.appArg! == mkFVar y then return some d.fvarId
  return none

/-- Reduce matches and projections in the target. -/
def tidy (g : MVarId) : MetaM MVarId := g.withContext do
  let ctx ← Simp.mkContext (congrTheorems := ← getSimpCongrTheorems)
  let r? ← observing? (dsimpGoal g ctx)
  match r? with
  | some (some g, _) => return g
  | _ => return g

/-- Split a match on two related variables. -/
def splitVars (g : MVarId) (x y : FVarId) : MetaM (List MVarId) := g.withContext do
  let some h ← findEq x y | throwError "no equality for the variables"
  -- drop the facts about the variables
  let mut g := g
  for d in ← getLCtx do
    if d.fvarId != h && !d.isImplementationDetail then
      if (← instantiateMVars d.type).containsFVar x && d.fvarId != x then g ← g.tryClear d.fvarId
  let (hs, g0) ← g.revert #[h]
  if hs.size != 1 then throwError "too many dependencies"
  let gs ← g0.cases x
  let mut out := []
  for s in gs do
    for s' in ← s.mvarId.cases y do
      let (h, g1) ← s'.mvarId.intro1
      out := out ++ (← digest g1 h)
  return out

/-- One step. -/
elab "sim_step" : tactic => withMainContext do
  let g ← getMainGoal
  let t ← whnfR (← instantiateMVars (← g.getType))
  unless t.isAppOfArity ``Sim 4 do throwError "not about two parser functions"
  let l := (t.getArg! 2).consumeMData.headBeta
  let r := (t.getArg! 3).consumeMData.headBeta
  let t := mkApp2 (t.appFn!.appFn!) l r
  let g ← g.replaceTargetDefEq t
  replaceMainGoal [g]
  match l, r with
  | .letE _ _ v b _, .letE _ _ v' b' _ =>
    replaceMainGoal [← g.replaceTargetDefEq (mkApp2 (t.appFn!.appFn!) (b.instantiate1 v) (b'.instantiate1 v'))]
  | _, _ =>
  if let some ma ← matchMatcherApp? l then
    let some mb ← matchMatcherApp? r | throwError "no match on the right"
    let mut st : Option Stuck := none
    for (a, b) in ma.discrs.zip mb.discrs do
      if st.isNone then st ← findStuck a b
    match st with
    | none => throwError "match on nodes"
    | some (.vars x y) =>
      let gs ← splitVars g x y
      replaceMainGoal (← gs.mapM fun s => tidy s)
    | some (.same e) =>
      if e.isFVar then
        let gs ← g.cases e.fvarId!
        replaceMainGoal (← gs.toList.mapM fun s => tidy s.mvarId)
      else
        let (xs, g) ← g.generalize #[{ expr := e, xName? := `z, hName? := `hz }]
        let gs ← g.withContext (g.cases xs[0]!)
        replaceMainGoal (← gs.toList.mapM fun s => tidy s.mvarId)
    | some (.terms a b) =>
      let ty ← mkEq (← mkAppM ``strip #[a]) (← mkAppM ``strip #[b])
      let p ← mkFreshExprSyntheticOpaqueMVar ty
      let rest ← Term.withSynthesize <| Tactic.run p.mvarId! (do evalTactic (← `(tactic| sim_val)))
      unless rest.isEmpty do throwError "sides differ {ty}"
      let (h, g) ← g.note `hd p
      let (_, g) ← g.revert #[h]
      let (_, g) ← g.generalize #[{ expr := a, xName? := `x }]
      let (_, g) ← g.generalize #[{ expr := b, xName? := `y }]
      let (_, g) ← g.intro1
      replaceMainGoal [g]
  else
  match l.getAppFn with
  | .const n _ =>
    if n == ``Bind.bind then
      evalTactic (← `(tactic| refine sim_bind ?_ ?_))
      let gs ← getGoals
      match gs with
      | g1 :: g2 :: rest => setGoals (g1 :: (← introPair g2) ++ rest)
      | _ => throwError "bind"
    else if n == ``Pure.pure then evalTactic (← `(tactic| (refine sim_pure ?_; sim_val)))
    else if n == ``ite then
      evalTactic (← `(tactic| refine sim_ite ?_ (fun _ _ => ?_) (fun _ _ => ?_)))
      let gs ← getGoals
      match gs with
      | g1 :: rest =>
        setGoals [g1]
        evalTactic (← `(tactic| sim_cond))
        setGoals ((← getGoals) ++ rest)
      | _ => throwError "ite"
    else
      let .str p s := n | throwError "name"
      let f := mkIdent (if p == ``Rec then `hs ++ Lean.Name.mkSimple s else Lean.Name.mkSimple ("sim_" ++ s))
      let ih := mkIdent `ih
      let all ← getGoals
      setGoals [g]
      evalTactic (← `(tactic| with_reducible first | apply $ih | apply $f))
      let new ← getGoals
      let mut left := []
      for g in new do
        unless ← g.isAssigned do
          let ty ← whnfR (← instantiateMVars (← g.getType))
          if ty.isAppOf ``Sim then left := left ++ [g]
          else
            setGoals [g]
            evalTactic (← `(tactic| sim_val))
      setGoals (left ++ all.tail!)
  | _ => throwError "unknown head"

/-- Add the consequences of all equalities. -/
elab "sim_facts" : tactic => withMainContext do
  let mut gs := [← getMainGoal]
  for d in ← getLCtx do
    if let some (_, a, _) := (← instantiateMVars d.type).eq? then
      if a.isAppOf ``Strip.strip then
        let mut out := []
        for g in gs do out := out ++ (← digest g d.fvarId)
        gs := out
  replaceMainGoal gs

/-- All steps. -/
macro "sim" : tactic => `(tactic| (sim_facts; repeat' sim_step))

end FM.Parser.Format
