import Lean.Elab.Tactic
import Verif.Model.Parser.Parse

/-! Helper lemmas: what the errors of a parser function say, and a tactic to step through the functions. -/

namespace FM.Parser.Says
open FM.Parser

variable {α β : Type}

/-- A message that is not empty and not the one for a token that begins no statement. -/
def Proper (m : String) : Prop := m ≠ "" ∧ m ≠ unexpectedToken

/-- The message of an error of the parser is proper. -/
def Good : Err → Prop
  | .tokenizer _ => True
  | .ast _ m _ => Proper m

/-- All errors of a parser function are good, and what it leaves is the end of what it was given. -/
def Says (p : M α) : Prop := ∀ ts r, p ts = .ok r → (∀ e ∈ r.errs, Good e) ∧ r.toks <:+ ts

theorem says_bind {p : M α} {f : α → M β} (h : Says p) (hf : ∀ a, Says (f a)) : Says (p >>= f) := by
  intro ts r hr
  change M.bind p f ts = .ok r at hr
  unfold M.bind at hr
  split at hr
  · rename_i r1 h1
    unfold Run.andThen at hr
    split at hr
    · rename_i r2 h2
      cases hr
      obtain ⟨h3, h4⟩ := h _ _ h1
      obtain ⟨h5, h6⟩ := hf _ _ _ h2
      exact ⟨fun e he => (List.mem_append.1 he).elim (h3 e) (h5 e), h6.trans h4⟩
    · cases hr
    · cases hr
  · cases hr
  · cases hr

theorem says_none {ts : Toks} {a : α} {k : Nat} {r : Run α} (h : Outcome.ok (Run.mk a ts [] k) = .ok r) :
    (∀ e ∈ r.errs, Good e) ∧ r.toks <:+ ts := by
  cases h
  exact ⟨nofun, List.suffix_refl ts⟩

theorem says_pure {a : α} : Says (pure a : M α) := fun _ _ hr => says_none hr
theorem says_panic : Says (panic : M α) := nofun
theorem says_diverge : Says (diverge : M α) := nofun
theorem says_fuel : Says fuel := fun _ _ hr => says_none hr
theorem says_giveUp : Says giveUp := fun _ _ hr => says_none hr
theorem says_unwrap {x : Res α} : Says x.unwrap := by
  cases x
  · exact says_pure
  · exact says_panic
  · exact says_panic
theorem says_current : Says current := by
  intro ts r hr
  unfold current at hr
  split at hr
  · exact says_none hr
  · exact says_none hr
  · exact says_none hr
  · cases hr
theorem says_peek : Says peek := by
  intro ts r hr
  unfold peek at hr
  split at hr
  · exact says_none hr
  · exact says_none hr
  · exact says_none hr
  · cases hr
theorem good_tokenizer {es : List TokErr} : ∀ e ∈ es.map Err.tokenizer, Good e := by
  intro e he
  obtain ⟨x, _, rfl⟩ := List.mem_map.1 he
  trivial
theorem says_consume : Says consume := by
  intro ts r hr
  unfold consume at hr
  split at hr <;> cases hr
  · exact ⟨nofun, List.suffix_cons _ _⟩
  · exact ⟨good_tokenizer, List.suffix_cons _ _⟩
  · exact ⟨good_tokenizer, List.suffix_cons _ _⟩
  · exact ⟨nofun, List.suffix_refl _⟩
theorem says_tokenError {t : TokRef} {m : String} (h : Proper m) : Says (tokenError t m) := by
  intro ts r hr
  cases hr
  exact ⟨fun e he => by cases List.mem_singleton.1 he; exact h, List.suffix_refl _⟩
theorem says_tokenErrorRanged {t a b : TokRef} {m : String} (h : Proper m) : Says (tokenErrorRanged t m a b) := by
  intro ts r hr
  cases hr
  exact ⟨fun e he => by cases List.mem_singleton.1 he; exact h, List.suffix_refl _⟩

theorem proper_append {a b : String} (h : a.toList.head? = some 'e') : Proper (a ++ b) := by
  have h1 : (a ++ b).toList.head? = some 'e' := by
    rw [String.toList_append, List.head?_append, h]
    rfl
  constructor
  · intro he
    rw [he] at h1
    exact absurd h1 (by decide)
  · intro he
    rw [he] at h1
    exact absurd h1 (by decide)

theorem unaryMessage_proper (t : TokRef) : Proper (unaryMessage t) := proper_append (by decide)

theorem methodMessage_proper (l : List Char) : Proper ("expected name after `" ++ String.ofList l ++ "`") := by
  rw [String.append_assoc]
  exact proper_append (by decide)

theorem endMessage_proper (s : String) : Proper ("expected `end` to close " ++ s ++ " block") := by
  rw [String.append_assoc]
  exact proper_append (by decide)

/-- The functions available for recursive calls. -/
structure RecSays (r : Rec) : Prop where
  block : Says r.block
  expr : Says r.expr
  primary : Says r.primary
  climb : ∀ {a : Node} {p : Nat}, Says (r.climb a p)
  type : Says r.type
  typeOrPack : Says r.typeOrPack

/-- Show that a message is proper. -/
macro "says_val" : tactic => `(tactic| first
  | with_reducible assumption
  | exact unaryMessage_proper _
  | exact methodMessage_proper _
  | exact endMessage_proper _
  | (unfold Proper unexpectedToken; decide)
  | (split <;> (unfold Proper unexpectedToken; decide)))

open Lean Elab Tactic Meta

/-- One step. -/
elab "says_step" : tactic => withMainContext do
  let g ← getMainGoal
  let t ← whnfR (← instantiateMVars (← g.getType))
  unless t.isAppOfArity ``Says 2 do throwError "not about a parser function"
  let l := (t.getArg! 1).consumeMData.headBeta
  let g ← g.replaceTargetDefEq (mkApp t.appFn! l)
  replaceMainGoal [g]
  match l with
  | .letE _ _ v b _ => replaceMainGoal [← g.replaceTargetDefEq (mkApp t.appFn! (b.instantiate1 v))]
  | _ =>
  if (← matchMatcherApp? l).isSome then evalTactic (← `(tactic| split))
  else
  match l.getAppFn with
  | .const n _ =>
    if n == ``Bind.bind then evalTactic (← `(tactic| refine says_bind ?_ (fun _ => ?_)))
    else if n == ``Pure.pure then evalTactic (← `(tactic| exact says_pure))
    else if n == ``ite then evalTactic (← `(tactic| split))
    else
      let .str p s := n | throwError "name"
      let f := mkIdent (if p == ``Rec then `hs ++ Lean.Name.mkSimple s else Lean.Name.mkSimple ("says_" ++ s))
      let ih := mkIdent `ih
      let all ← getGoals
      setGoals [g]
      evalTactic (← `(tactic| with_reducible first | apply $ih | apply $f))
      let new ← getGoals
      let mut left := []
      for g in new do
        unless ← g.isAssigned do
          let ty ← whnfR (← instantiateMVars (← g.getType))
          if ty.isAppOf ``Says then left := left ++ [g]
          else
            setGoals [g]
            evalTactic (← `(tactic| says_val))
      setGoals (left ++ all.tail!)
  | _ => evalTactic (← `(tactic| assumption))

/-- All steps. -/
macro "says" : tactic => `(tactic| repeat' says_step)

end FM.Parser.Says
