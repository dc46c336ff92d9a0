import Lean.Elab.Tactic
import Verif.Proofs.Parser.Logic

/-! Helper lemmas: stepping through parser functions. -/

namespace FM.Parser
open FM.Spec

variable {c : Cfg} {K : TokRef → Prop} {α β : Type}

/-- A type, with at least one token. -/
def TyOk (c : Cfg) (K : TokRef → Prop) (n : Node) : Prop := WellTy c K (.cat .typeInfo) n ∧ n.tokens ≠ []

/-- The result of a function: a value satisfies `S` and took at least one token. -/
def ResQ (S : α → Prop) (ts : Toks) (r : Res α) (ts' : Toks) : Prop :=
  ∀ v, r = .value v → S v ∧ ts'.length < ts.length

/-- The same for functions that return an `Option`. -/
def OptQ (S : α → Prop) (r : Option α) (_ : Toks) : Prop := ∀ v, r = some v → S v

/-- The result of `parse_block`. -/
def BlockQ (c : Cfg) (K : TokRef → Prop) (ts : Toks) (r : Res Blk) (ts' : Toks) : Prop :=
  (∀ b, r = .value b → BlkTy c K b ∧ (b.stmts ≠ [] → ts'.length < ts.length)) ∧ r ≠ .notFound ∧
    (r = .moved → ts'.length < ts.length)

/-- The result of `parse_expression_with_precedence`: it takes an operator if that binds strongly enough. -/
def ClimbQ (c : Cfg) (K : TokRef → Prop) (precedence : Nat) (ts : Toks) (r : Res Node) (ts' : Toks) : Prop :=
  ∀ v, r = .value v → WellTy c K (.cat .expr) v ∧
    (ts'.length < ts.length ∨
      ts' = ts ∧ ∀ t, Head ts t → ∀ level, BinOp.precedenceOfToken c.feat t = some level → level < precedence)

/-- The functions available for recursive calls do what they should on at most `n` tokens. -/
structure RecOk (c : Cfg) (K : TokRef → Prop) (n : Nat) (fs : Rec) : Prop where
  block : ∀ ts : Toks, ts.length ≤ n → wp c K fs.block ts (BlockQ c K ts)
  expr : ∀ ts : Toks, ts.length ≤ n → wp c K fs.expr ts (ResQ (WellTy c K (.cat .expr)) ts)
  primary : ∀ ts : Toks, ts.length ≤ n → wp c K fs.primary ts (ResQ (WellTy c K (.cat .expr)) ts)
  climb : ∀ (ts : Toks) (lhs : Node) (p : Nat), ts.length ≤ n → WellTy c K (.cat .expr) lhs →
    wp c K (fs.climb lhs p) ts (ClimbQ c K p ts)
  type : c.luau = true → ∀ ts : Toks, ts.length ≤ n → wp c K fs.type ts (ResQ (TyOk c K) ts)
  typeOrPack : c.luau = true → ∀ ts : Toks, ts.length ≤ n → wp c K fs.typeOrPack ts (ResQ (TyOk c K) ts)

theorem notEof_is {s : Symbol} {t : TokRef} (h : is s t = true) : t.isEof = false := solid_is s t h
theorem notEof_ident {t : TokRef} (h : t.isIdent = true) : t.isEof = false := solid_ident t h
theorem notEof_string {t : TokRef} (h : t.isString = true) : t.isEof = false := solid_string t h
theorem notEof_interp {t : TokRef} {k : InterpKind} (h : interpKind t = some k) : t.isEof = false := by
  unfold interpKind at h
  split at h
  · rename_i hk; simp [TokRef.isEof, hk, TokenType.kind]
  · cases h
theorem notEof_number {t : TokRef} (h : t.isNumber = true) : t.isEof = false := solid_number t h

/-- Shows that a token is not Eof, from what is known about it. -/
macro "notEof0" : tactic => `(tactic| first
  | assumption
  | exact notEof_is (by assumption)
  | exact notEof_ident (by assumption)
  | exact notEof_string (by assumption)
  | exact notEof_number (by assumption)
  | exact notEof_interp (by assumption))

/-- The same, when it is known by a disjunction or conjunction. -/
macro "notEof1" : tactic => `(tactic| first
  | notEof0
  | (refine eof_or (by assumption) (fun _ => ?_) (fun _ => ?_) <;> notEof0)
  | (refine eof_and_right (by assumption) (fun _ => ?_); notEof0)
  | (refine eof_and_left (by assumption) (fun _ => ?_); notEof0))

/-- The same, when it is known by a disjunction or conjunction of those. -/
macro "notEof" : tactic => `(tactic| first
  | notEof1
  | (refine eof_or (by assumption) (fun _ => ?_) (fun _ => ?_) <;> notEof1)
  | (refine eof_and_right (by assumption) (fun _ => ?_); notEof1)
  | (refine eof_and_left (by assumption) (fun _ => ?_); notEof1))

open Lean Elab Tactic Meta in
/-- Checks that the goal is about the parser function of the given name. -/
elab "wp_head" n:ident : tactic => withMainContext do
  let e := (← instantiateMVars (← getMainTarget)).consumeMData
  unless e.isAppOfArity ``wp 6 do throwError "not about a parser function"
  let some f := (e.getArg! 3).consumeMData.getAppFn.constName? | throwError "not a constant"
  unless f == (← realizeGlobalConstNoOverload n) do throwError "another function"

/-- Shows `Solid p`. -/
macro "solid" : tactic => `(tactic| first
  | exact solid_is _
  | exact solid_ident
  | exact solid_string
  | exact solid_any _
  | exact solid_named _
  | exact solid_or (solid_is _) (solid_is _))

/-- One step: use the specification of the function at the front. -/
syntax "wspec" : tactic
macro_rules | `(tactic| wspec) => `(tactic| fail "no specification")

/-- One step through a parser function. -/
macro "wstep" : tactic => `(tactic| (with_reducible first
  | (wp_head Pure.pure; refine wp_pure ?_)
  | (wp_head Bind.bind; refine wp_bind ?_)
  | (wp_head ite; first | refine wp_ite_true ?_ | refine wp_ite_false ?_ | refine wp_ite_and_false ?_ | refine wp_ite_and_true ?_ | refine wp_ite (fun _ => ?_) (fun _ => ?_))
  | (wp_head current; refine wp_current (fun _ _ _ => ?_) (fun _ => ?_))
  | (wp_head take; refine wp_take (by assumption) (by notEof) (fun _ _ => ?_))
  | (wp_head consume; refine wp_consume (by assumption) (by notEof) (fun _ _ => ?_))
  | (wp_head takeIf; refine wp_takeIf (by solid) (fun _ _ _ _ _ => ?_) (fun _ _ _ _ => ?_) (fun _ => ?_))
  | (wp_head consumeIf; refine wp_consumeIf (fun _ _ _ _ _ => ?_) (fun _ => ?_))
  | (wp_head consumeIfAny; refine wp_consumeIfAny (fun _ _ _ _ _ => ?_) (fun _ => ?_))
  | (wp_head FM.Parser.require; refine wp_require (fun _ _ _ _ _ => ?_) (fun _ => ?_))
  | (wp_head requireWithToken; refine wp_requireWithToken (by assumption) (fun _ _ _ _ _ => ?_) ?_)
  | (wp_head tokenError; refine wp_tokenError (by assumption) ?_)
  | (wp_head tokenErrorRanged; refine wp_tokenErrorRanged (by assumption) (by assumption) (by assumption) ?_)
  | (wp_head currentIs; refine wp_currentIs (fun _ _ _ _ => ?_) (fun _ => ?_))
  | (wp_head peekIs; refine wp_peekIs (by assumption) (by notEof) (fun _ _ _ _ => ?_) ?_)
  | (wp_head fuel; refine wp_fuel ?_)
  | (wp_head giveUp; refine wp_giveUp (by assumption) ?_)
  | (wp_head currentUnwrap; refine wp_currentUnwrap (by assumption) (fun _ _ _ => ?_))
  | (wp_head basicSymbol; refine wp_basicSymbol (by with_unfolding_all exact rfl) (fun _ _ _ => ?_))
  | (wp_head requireOr; refine wp_requireOr (by simp [madeTexts]) (fun _ _ _ _ => ?_) (fun _ _ _ => ?_))
  | wspec) <;> try dsimp only)

/-- All steps. -/
macro "wsteps" : tactic => `(tactic| ((try dsimp only); repeat' wstep))

/-- Unfold types of nodes. -/
macro "ty_simp" : tactic => `(tactic| simp only [wellTy_cat_node, Kind.cat, Kind.sig, Kind.gate, recovered, production, reduceCtorEq, or_self, or_false, false_or, true_or, or_true, false_implies, true_implies, ins_cons, ins_nil, in_tok,
  in_span, in_cat, in_type, in_opt_cat, in_many_cat, in_many_opt_cat, in_opt_some_cat, in_none, in_some, in_optTok, in_optNode, in_vec, in_tuple, in_punct,
  is_sym₁, is_sym₂, Bool.true_or, Bool.or_true, is_name, is_nameOrNil, is_word₁, is_word₂, is_string, is_number, is_interp, Option.isSome_some,
  wellTy_none, wellTy_some, wellTy_optNode, wellTy_vec_vec, wellTy_blk,
  true_and, and_true, optP_none, optP_some, allP_nil, allP_one, allP_append, BlkTy.empty, *])

theorem sep_is {s : Symbol} {t : TokRef} (h : is s t = true) : [s].any t.isSymbol = true := by
  simpa [is] using h

theorem sep_or {a b : Symbol} {t : TokRef} (h : (is a t || is b t) = true) : [a, b].any t.isSymbol = true := by
  simpa [is] using h

/-- Shows that a separator is one of the given symbols. -/
macro "sep" : tactic => `(tactic| first | assumption | exact sep_is (by assumption) | exact sep_or (by assumption))

theorem ResQ.value {S : α → Prop} {ts ts' : Toks} {v : α} (h : S v) (hl : ts'.length < ts.length) : ResQ S ts (.value v) ts' := by
  intro w hw; cases hw; exact ⟨h, hl⟩
theorem ResQ.moved {S : α → Prop} {ts ts' : Toks} : ResQ S ts .moved ts' := by intro w hw; cases hw
theorem ResQ.notFound {S : α → Prop} {ts ts' : Toks} : ResQ S ts .notFound ts' := by intro w hw; cases hw
theorem OptQ.none {S : α → Prop} {ts : Toks} : OptQ S none ts := by intro w hw; cases hw
theorem OptQ.some {S : α → Prop} {ts : Toks} {v : α} (h : S v) : OptQ S (some v) ts := by intro w hw; cases hw; exact h

/-- Use a specification whose result is a `ResQ`. -/
theorem wp_res {p : M (Res α)} {S : α → Prop} {ts : Toks} {Q : Res α → Toks → Prop} (h : wp c K p ts (ResQ S ts))
    (h1 : ∀ v ts', ts'.length < ts.length → S v → Q (.value v) ts')
    (h2 : ∀ ts', ts'.length ≤ ts.length → Q .moved ts')
    (h3 : ∀ ts', ts'.length ≤ ts.length → Q .notFound ts') : wp c K p ts Q := by
  refine wp_mono h fun r ts' hl hr => ?_
  cases r with
  | value v => exact h1 v ts' (hr v rfl).2 (hr v rfl).1
  | moved => exact h2 ts' hl
  | notFound => exact h3 ts' hl

theorem wp_opt {p : M (Option α)} {S : α → Prop} {ts : Toks} {Q : Option α → Toks → Prop} (h : wp c K p ts (OptQ S))
    (h1 : ∀ v ts', ts'.length ≤ ts.length → S v → Q (some v) ts')
    (h2 : ∀ ts', ts'.length ≤ ts.length → Q none ts') : wp c K p ts Q := by
  refine wp_mono h fun r ts' hl hr => ?_
  cases r with
  | some v => exact h1 v ts' hl (hr v rfl)
  | none => exact h2 ts' hl

/-- A value satisfies `S`. -/
def ValQ (S : α → Prop) (r : Res α) (_ : Toks) : Prop := ∀ v, r = .value v → S v

theorem ValQ.value {S : α → Prop} {ts : Toks} {v : α} (h : S v) : ValQ S (.value v) ts := by intro w hw; cases hw; exact h
theorem ValQ.moved {S : α → Prop} {ts : Toks} : ValQ S .moved ts := by intro w hw; cases hw
theorem ValQ.notFound {S : α → Prop} {ts : Toks} : ValQ S .notFound ts := by intro w hw; cases hw

theorem wp_val {p : M (Res α)} {S : α → Prop} {ts : Toks} {Q : Res α → Toks → Prop} (h : wp c K p ts (ValQ S))
    (h1 : ∀ v ts', ts'.length ≤ ts.length → S v → Q (.value v) ts')
    (h2 : ∀ ts', ts'.length ≤ ts.length → Q .moved ts')
    (h3 : ∀ ts', ts'.length ≤ ts.length → Q .notFound ts') : wp c K p ts Q := by
  refine wp_mono h fun r ts' hl hr => ?_
  cases r with
  | value v => exact h1 v ts' hl (hr v rfl)
  | moved => exact h2 ts' hl
  | notFound => exact h3 ts' hl

/-! ## Lists -/

theorem oneOrMoreLoop_spec {P : α → Prop} {b : Nat} {parser : M (Res α)} {d : Symbol}
    (hp : ∀ ts : Toks, ts.length ≤ b → wp c K parser ts (ResQ P ts)) :
    ∀ (m : Nat) (ts : Toks) (values : Punctuated α), ts.length < m → ts.length ≤ b → PAll K [d] P values →
    wp c K (oneOrMoreLoop parser d m values) ts
      (fun r _ => PAll K [d] P r ∧ (values.pairs ≠ [] → r.pairs ≠ []))
  | 0, _, _, hm, _, _ => by omega
  | m + 1, ts, values, hm, hb, hv => by
    have ih := oneOrMoreLoop_spec hp (d := d) m
    unfold oneOrMoreLoop
    refine wp_bind (wp_res (hp ts hb) (fun v ts' hl h => ?_) (fun _ _ => ?_) (fun _ _ => ?_))
    · wsteps
      · refine wp_mono (ih _ _ (by omega) (by omega) (hv.push_punct h ‹_› (by sep))) fun r _ _ hr => ⟨hr.1, fun _ => hr.2 (by simp [Punctuated.push])⟩
      · exact ⟨hv.push_end h, fun _ => by simp [Punctuated.push]⟩
    · exact wp_pure ⟨hv, id⟩
    · exact wp_pure ⟨hv, id⟩

/-- `one_or_more` finds nothing only if the first value is not found, in which case `N` holds. -/
theorem wp_oneOrMore {P : α → Prop} {N : Prop} {b : Nat} {parser : M (Res α)} {d : Symbol} {ts : Toks}
    {Q : Res (Punctuated α) → Toks → Prop} (hp : ∀ ts : Toks, ts.length ≤ b → wp c K parser ts (ResQ P ts)) (hb : ts.length ≤ b)
    (h0 : wp c K parser ts (fun r ts' => ResQ P ts r ts' ∧ ((∀ v, r ≠ .value v) → N)))
    (h1 : ∀ l ts', ts'.length < ts.length → PAll K [d] P l → l.pairs ≠ [] → NoTrail l → Q (.value l) ts')
    (h2 : ∀ ts', ts'.length ≤ ts.length → N → Q .notFound ts') : wp c K (oneOrMore parser d) ts Q := by
  unfold oneOrMore
  wsteps
  unfold oneOrMoreLoop
  have key : ∀ (r : Punctuated α) (ts' : Toks), ts'.length < ts.length → PAll K [d] P r → r.pairs ≠ [] →
      wp c K (if r.isEmpty = true then pure Res.notFound else do
        let a ← dropTrailing "trailing commas are not allowed" r
        pure (Res.value a)) ts' Q := by
    intro r ts' hl hr hne
    have : r.isEmpty = false := by simpa [Punctuated.isEmpty, Punctuated.len] using hne
    rw [this]
    wsteps
    exact wp_dropTrailing hr fun p hp hne' ht => wp_pure (h1 p ts' hl hp (hne' hne) ht)
  refine wp_bind (wp_mono h0 fun r ts' hl hr => ?_)
  cases r with
  | value v =>
    obtain ⟨hv, hlt⟩ := hr.1 v rfl
    refine wp_bind (wp_consumeIf (fun _ _ _ _ _ => ?_)
      fun _ => wp_pure (key _ _ hlt (PAll.new.push_end hv) (by simp [Punctuated.push])))
    refine wp_mono (oneOrMoreLoop_spec hp _ _ _ (by omega) (by omega) (PAll.new.push_punct hv ‹_› (by sep))) fun r ts' hl hr => ?_
    exact key r ts' (by omega) hr.1 (hr.2 (by simp [Punctuated.push]))
  | moved =>
    refine wp_pure ?_
    exact wp_pure (h2 _ hl (hr.2 (by simp)))
  | notFound =>
    refine wp_pure ?_
    exact wp_pure (h2 _ hl (hr.2 (by simp)))

end FM.Parser
