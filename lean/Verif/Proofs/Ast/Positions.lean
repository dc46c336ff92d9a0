import Verif.Proofs.Ast.VisitMut
import Verif.Proofs.Text

/-!
# `update_positions`
-/

namespace FM
open Spec

/-- The state of the loop over the characters of a token after the text `v`. -/
def Rep (v : Text) (p : Position) : Bool → Prop
  | false => p = position v
  | true => ∃ u, v = u ++ ['\n'] ∧ p = { position u with bytes := utf8Len v }

theorem utf8Len_snoc (v : Text) (ch : Char) : utf8Len (v ++ [ch]) = utf8Len v + ch.utf8Size := by
  simp [utf8Len]

theorem rep_start {v : Text} {p : Position} {nl : Bool} (h : Rep v p nl) :
    (if nl then { p with line := p.line + 1, character := 1 } else p) = position v := by
  cases nl with
  | false => exact h
  | true =>
    obtain ⟨u, rfl, rfl⟩ := h
    simp [utf8Len_snoc, position]
    omega

theorem rep_step {v : Text} {p : Position} {nl : Bool} (h : Rep v p nl) (ch : Char) (w : Text) :
    ∃ q, updateChars (ch :: w) p nl = updateChars w q (ch == '\n') ∧ Rep (v ++ [ch]) q (ch == '\n') := by
  rw [updateChars]
  simp only [rep_start h]
  refine ⟨_, rfl, ?_⟩
  by_cases hc : ch = '\n'
  · subst hc
    simp only [beq_self_eq_true, if_true, Rep]
    exact ⟨v, rfl, by simp [utf8Len_snoc, position]⟩
  · rw [show (ch == '\n') = false by simpa using hc]
    simp [Rep, position_snoc, Position.advance, hc]

theorem updateChars_rep : ∀ (w v : Text) (p : Position) (nl : Bool), Rep v p nl →
    Rep (v ++ w) (updateChars w p nl).1 (updateChars w p nl).2 ∧
    (w ≠ [] → (updateChars w p nl).2 = (w.getLast? == some '\n'))
  | [], v, p, nl, h => by simpa [updateChars] using h
  | ch :: w, v, p, nl, h => by
    obtain ⟨q, he, hq⟩ := rep_step h ch w
    rw [he]
    obtain ⟨h1, h2⟩ := updateChars_rep w (v ++ [ch]) q _ hq
    refine ⟨by simpa using h1, fun _ => ?_⟩
    cases w with
    | nil => simp [updateChars]
    | cons d w => rw [h2 (by simp)]; simp [List.getLast?_cons]

theorem updateToken_eq (t : Token) (v : Text) : updateToken t ⟨position v, false⟩ =
    (⟨position v, endPosition v t.display, t.type⟩, ⟨position (v ++ t.display), false⟩) := by
  have h := updateChars_rep t.display v (position v) false rfl
  have hs := rep_start h.1
  have hstop : (updateChars t.display (position v) false).1 = endPosition v t.display := by
    unfold endPosition
    by_cases hn : t.display = []
    · simp [hn, updateChars]
    · have h2 := h.2 hn
      by_cases hl : t.display.getLast? = some '\n'
      · rw [h2] at h
        simp only [hl, beq_self_eq_true, Rep, if_true] at h ⊢
        obtain ⟨⟨u, hu, hp⟩, _⟩ := h
        rw [hp]
        obtain ⟨i, x, hw⟩ : ∃ i x, t.display = i ++ [x] := ⟨_, _, (List.dropLast_concat_getLast hn).symm⟩
        rw [hw, List.getLast?_concat] at hl
        rw [hw, ← List.append_assoc] at hu
        obtain ⟨rfl, _⟩ := List.append_inj' hu rfl
        simp [hw]
      · rw [h2] at h
        rw [show (t.display.getLast? == some '\n') = false by simpa using hl] at h
        rw [if_neg hl]
        exact h.1
  by_cases he : t.type = .eof
  · have hd : t.display = [] := by simp [Token.display, he, TokenType.display]
    have : updateToken t ⟨position v, false⟩ = (⟨position v, position v, t.type⟩, ⟨position v, false⟩) := by
      unfold updateToken
      simp only [if_pos he]
      rfl
    rw [this, hd]
    simp [endPosition]
  · have : updateToken t ⟨position v, false⟩ =
        (⟨position v, (updateChars t.display (position v) false).1, t.type⟩,
          ⟨if (updateChars t.display (position v) false).2 then
            { (updateChars t.display (position v) false).1 with
              line := (updateChars t.display (position v) false).1.line + 1, character := 1 }
            else (updateChars t.display (position v) false).1, false⟩) := by
      unfold updateToken
      simp only [if_neg he]
      rfl
    rw [this, hstop, ← hs, hstop]

theorem display_of_types {a b : List Token} (h : a.map Token.type = b.map Token.type) :
    a.flatMap Token.display = b.flatMap Token.display := by
  have : ∀ l : List Token, l.flatMap Token.display = (l.map Token.type).flatMap TokenType.display := by
    intro l; rw [List.flatMap_map]; rfl
  rw [this, this, h]

theorem updateTokens_spec : ∀ (ts : List Token) (v : Text),
    Positioned v (updateTokens ts ⟨position v, false⟩).1 ∧
    (updateTokens ts ⟨position v, false⟩).1.map Token.type = ts.map Token.type ∧
    (updateTokens ts ⟨position v, false⟩).2 = ⟨position (v ++ ts.flatMap Token.display), false⟩ ∧
    (Positioned v ts → (updateTokens ts ⟨position v, false⟩).1 = ts)
  | [], v => by simp [updateTokens, Positioned]
  | t :: ts, v => by
    obtain ⟨h1, h2, h3, h4⟩ := updateTokens_spec ts (v ++ t.display)
    simp only [updateTokens, run_bind, run_pure, updateToken_eq, h3]
    refine ⟨⟨rfl, rfl, h1⟩, by simp [h2], by simp, fun h => ?_⟩
    obtain ⟨ha, hb, hc⟩ := h
    rw [h4 hc, ← ha, ← hb]

theorem updateReference_spec (t : TokRef) (v : Text) :
    Positioned v (updateReference t ⟨position v, false⟩).1.flat ∧
    (updateReference t ⟨position v, false⟩).1.flat.map Token.type = t.flat.map Token.type ∧
    (updateReference t ⟨position v, false⟩).2 = ⟨position (v ++ t.display), false⟩ ∧
    (Positioned v t.flat → (updateReference t ⟨position v, false⟩).1 = t) := by
  obtain ⟨l, t, r⟩ := t
  obtain ⟨a1, a2, a3, a4⟩ := updateTokens_spec l v
  obtain ⟨b1, b2, b3, b4⟩ := updateTokens_spec r (v ++ l.flatMap Token.display ++ t.display)
  have hd : (updateTokens l ⟨position v, false⟩).1.flatMap Token.display = l.flatMap Token.display := display_of_types a2
  have hp : ∀ {a b : List Token} {v}, Positioned v (a ++ b) ↔
      Positioned v a ∧ Positioned (v ++ a.flatMap Token.display) b := by
    intro a b
    induction a with
    | nil => simp [Positioned]
    | cons x a ih => intro v; simp [Positioned, ih, and_assoc]
  simp only [updateReference, run_bind, run_pure, a3, updateToken_eq, b3, TokRef.flat]
  refine ⟨?_, ?_, ?_, ?_⟩
  · rw [hp, hd]
    exact ⟨a1, rfl, rfl, b1⟩
  · rw [List.append_assoc] at b2
    simp [a2, b2]
  · simp [TokRef.display]
  · intro h
    obtain ⟨h1, h2, h3, h4⟩ := hp.1 h
    rw [a4 h1, b4 h4, ← h2, ← h3]

/-- The visitor of `update_positions`. -/
abbrev positionVisitor : TokenVisitor Rewriter := { reference := updateReference }

theorem run_ite {σ α : Type} {c : Prop} [d : Decidable c] (a b : StateM σ α) (s : σ) :
    (if c then a else b) s = if c then a s else b s := by cases d <;> rfl

theorem visitTokens_default {σ : Type} (v : TokenVisitor σ) (h1 : v.token = pure) (h2 : v.tokenKind = pure)
    (ts : List Token) (s : σ) : visitTokens v ts s = (ts, s) := by
  induction ts generalizing s with
  | nil => rfl
  | cons t ts ih =>
    have : t.visitMut v s = (t, s) := by
      unfold Token.visitMut
      rw [h1, h2]
      simp only [run_bind, run_pure, run_ite, ite_self]
    simp [visitTokens, this, ih]

theorem visitMut_positionVisitor (t : TokRef) (s : Rewriter) :
    t.visitMut positionVisitor s = updateReference t s := by
  unfold TokRef.visitMut
  simp only [run_bind, run_pure, visitTokens_default positionVisitor rfl rfl]
  generalize updateReference t s = r
  obtain ⟨r, s⟩ := r
  have ht : ∀ t : Token, t.visitMut positionVisitor s = (t, s) := by
    intro t
    unfold Token.visitMut
    simp only [run_bind, run_pure, run_ite, ite_self]
  by_cases he : r.token.type = TokenType.eof <;>
    simp only [he, if_true, if_false, run_bind, run_pure, ht, visitTokens_default positionVisitor rfl rfl]

theorem positioned_append {a b : List Token} {v : Text} : Positioned v (a ++ b) ↔
    Positioned v a ∧ Positioned (v ++ a.flatMap Token.display) b := by
  induction a generalizing v with
  | nil => simp [Positioned]
  | cons x a ih => simp [Positioned, ih, and_assoc]

theorem visitRefs_positions : ∀ (ts : List TokRef) (v : Text),
    Positioned v (allTokens (visitRefs positionVisitor ts ⟨position v, false⟩).1) ∧
    (allTokens (visitRefs positionVisitor ts ⟨position v, false⟩).1).map Token.type = (allTokens ts).map Token.type ∧
    (Positioned v (allTokens ts) → (visitRefs positionVisitor ts ⟨position v, false⟩).1 = ts)
  | [], v => by simp [allTokens, Positioned]
  | t :: ts, v => by
    obtain ⟨a1, a2, a3, a4⟩ := updateReference_spec t v
    obtain ⟨b1, b2, b3⟩ := visitRefs_positions ts (v ++ t.display)
    have hd : (updateReference t ⟨position v, false⟩).1.flat.flatMap Token.display = t.display := by
      rw [display_of_types a2]
      simp [TokRef.flat, TokRef.display]
    simp only [visitRefs, run_bind, run_pure, visitMut_positionVisitor, a3]
    simp only [allTokens, List.flatMap_cons] at b1 b2 b3 ⊢
    refine ⟨?_, ?_, ?_⟩
    · rw [positioned_append, hd]
      exact ⟨a1, b1⟩
    · simp [a2, b2]
    · intro h
      rw [positioned_append] at h
      have : t.flat.flatMap Token.display = t.display := by simp [TokRef.flat, TokRef.display]
      rw [this] at h
      rw [a4 h.1, b3 h.2]

end FM
