import Verif.Proofs.RespaceLaid
import Verif.Spec.Building
import Verif.Props.Spacing

/-! Helper lemmas: tokens that may touch. -/

namespace FM
open Spec Props

variable {c : Cfg} {ty ty' : TokenType}

theorem alone_solid (hc : c.Reachable) (h : Alone c ty) : Solid ty ∧ Scans c ty [] := by
  obtain ⟨h1, h2, h3, h4⟩ := readsAs_scans hc (tys := []) h.2 (by simp)
  exact ⟨⟨h1, h2, fun x k e => h.1 ⟨x, k, e⟩, h3⟩, h4⟩

theorem chain_one (hc : c.Reachable) (h : Alone c ty) : Chain c [ty] (ty.display ++ ([] ++ [])) := by
  obtain ⟨h1, h2⟩ := alone_solid hc h
  exact .cons h1 h2 follows_nil (fun _ => nofun) .nil .nil

theorem chain_reads {tys : List TokenType} {s : Text} (h : Chain c tys s) : ReadsAs c s tys := by
  obtain ⟨us, h6, h7⟩ := lexAll_chain h .nil
  exact ⟨chain_noShebang h .nil, _, h6, errorsOf_ok us, by rw [tokensOf_ok]; exact h7⟩

/-- Any token may touch one that starts with a soft character. -/
theorem touch_soft (hc : c.Reachable) (h : Alone c ty) (h' : Alone c ty')
    (hs : ∃ ch w, ty'.display = ch :: w ∧ IsSoft ch) : MayTouch c ty ty' := by
  obtain ⟨ch, w, e, hs⟩ := hs
  obtain ⟨h1, h2⟩ := alone_solid hc h
  have hne : ch ≠ '=' ∧ ch ≠ '[' := by
    have := blank_not hs
    exact ⟨this.2.2.2.2.2.2.2.2.2.2.2.2.2.2.2.2.2.2.2.2.1, this.2.2.2.2.2.2.2.2.2.2.2.2.2.2.2.2.2.2.2.2.2⟩
  have hch : Chain c [ty, ty'] (ty.display ++ ([] ++ (ty'.display ++ ([] ++ [])))) := by
    refine .cons h1 h2 ⟨.inr ?_⟩ (fun _ ho => ?_) .nil (chain_one hc h')
    · rw [e]; exact hs
    · rw [e] at ho
      simp [opensLong, hne] at ho
  refine ⟨h.1, by simpa using chain_reads hch, fun _ => ⟨ch, by rw [e]; exact .head _, hne.1⟩⟩

/-- A token that is read in front of another one may touch it. -/
theorem touch_scans (hc : c.Reachable) (h : Alone c ty) (h' : Alone c ty') (hs : Scans c ty ty'.display)
    (hb : ty.display ≠ c!"[") : MayTouch c ty ty' := by
  obtain ⟨h1, _⟩ := alone_solid hc h
  have hch : Chain c [ty, ty'] (ty.display ++ ([] ++ (ty'.display ++ ([] ++ [])))) := by
    refine .cons h1 hs ⟨.inl (by simp)⟩ (fun e => absurd e hb) .nil (chain_one hc h')
  exact ⟨h.1, by simpa using chain_reads hch, fun e => absurd e hb⟩

theorem scans_leftParen (rest : Text) : Scans c (.symbol .leftParen) rest :=
  ⟨⟨0, 0, 0⟩, false, [], _, _, rfl, rfl, rfl⟩

theorem scans_rightParen (rest : Text) : Scans c (.symbol .rightParen) rest :=
  ⟨⟨0, 0, 0⟩, false, [], _, _, rfl, rfl, rfl⟩

end FM
