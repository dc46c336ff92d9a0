import Verif.Proofs.RespaceOrig
import Verif.Props.Accepted

/-! Helper lemmas: printed tokens as a chain. -/

namespace FM
open Spec

variable {c : Cfg}

theorem scans_interpolated (hc : c.Good) {ty : TokenType} {rest : Text} (h : Scans c ty rest) (hd : ty.display ≠ []) (hlu : c.has .luau = false) (x : Text) (k : InterpKind) :
    ty ≠ .interpolated x k := by
  obtain ⟨p, b, bs, t, l', e, rfl, hr⟩ := h
  cases hw : t.type.display with
  | nil => exact absurd hw hd
  | cons ch w =>
    rw [hw] at e
    obtain ⟨res, hres, ⟨w', hw', hrd, hg⟩, _⟩ := processNext_cons hc (l := ⟨⟨ch :: w ++ rest, p⟩, b, bs⟩) rfl e
    cases hres
    intro e2
    have := hg.2.2.2.2
    rw [e2] at this
    exact absurd (this.symm.trans hlu) (by decide)

theorem display_length (us : List TokRef) : ((us.map (·.token.type)).flatMap TokenType.display).length ≤ (us.flatMap TokRef.display).length ∧
    ((us.flatMap TokRef.display).length ≤ ((us.map (·.token.type)).flatMap TokenType.display).length →
      us.flatMap TokRef.display = (us.map (·.token.type)).flatMap TokenType.display) := by
  induction us with
  | nil => exact ⟨Nat.le_refl _, fun _ => rfl⟩
  | cons u us ih =>
    have hd : u.display = text u.leading ++ u.token.type.display ++ text u.trailing := by simp [TokRef.display, Token.display, text]
    simp only [List.map_cons, List.flatMap_cons, hd, List.length_append]
    refine ⟨by omega, fun h => ?_⟩
    have h1 : text u.leading = [] := List.length_eq_zero_iff.1 (by omega)
    have h2 : text u.trailing = [] := List.length_eq_zero_iff.1 (by omega)
    rw [h1, h2, ih.2 (by omega)]
    simp

theorem readsAs_scans (hc : c.Reachable) {s : Text} {ty : TokenType} {tys : List TokenType} (h : ReadsAs c s (ty :: tys)) (hs : s.length ≤ ty.display.length + (tys.flatMap TokenType.display).length) :
    ty.isTrivia = false ∧ ty ≠ .eof ∧ ty.display ≠ [] ∧ Scans c ty (tys.flatMap TokenType.display) := by
  obtain ⟨hsh, rs, hl, he, ht⟩ := h
  have hok := Props.all_ok_of_no_errors he fun es hr => Props.failed_results_have_errors hc hl hr
  generalize tokensOf rs = us at hok ht
  subst hok
  obtain ⟨h1, h2⟩ := lexAll_scans hc.good hsh hl
  cases us with
  | nil => cases ht
  | cons u us =>
    simp only [List.map_cons, List.cons_append, List.cons.injEq] at ht
    obtain ⟨rfl, ht⟩ := ht
    obtain ⟨g1, g2, g3, g4⟩ := h2
    have hne : u.token.type ≠ .eof := fun e => by
      rw [(g2 e).2] at ht
      simp at ht
    obtain ⟨g5, g6⟩ := g3 hne
    have hd : u.display = text u.leading ++ u.token.type.display ++ text u.trailing := by simp [TokRef.display, Token.display, text]
    have hfm : (us.map (·.token.type)).flatMap TokenType.display = tys.flatMap TokenType.display := by
      rw [ht]; simp [TokenType.display]
    have hlen := display_length us
    rw [hfm] at hlen
    rw [h1] at hs
    simp only [List.flatMap_cons, hd, List.length_append] at hs
    have h3 : text u.trailing = [] := List.length_eq_zero_iff.1 (by omega)
    rw [h3, hlen.2 (by omega)] at g6
    exact ⟨g1, hne, g5, g6⟩

theorem opensLong_stop {x r : Text} (h : ∃ ch ∈ x, ch ≠ '=') (ho : opensLong (x ++ r) = true) : opensLong x = true := by
  induction x with
  | nil => simp at h
  | cons y x ih =>
    unfold opensLong at ho ⊢
    simp only [List.cons_append] at ho
    split at ho
    · rename_i e
      rw [if_pos e]
      refine ih ?_ ho
      obtain ⟨ch, hm, hne⟩ := h
      rcases List.mem_cons.1 hm with rfl | hm
      · exact absurd e hne
      · exact ⟨ch, hm, hne⟩
    · rename_i e
      rw [if_neg e]
      exact ho

theorem laid_chain (hc : c.Reachable) {tys : List TokenType} {s : Text} (h : Laid c tys s) : Chain c tys s ∧
    ∀ ty tys', tys = ty :: tys' → ty.display ≠ [] ∧ ty.display <+: s := by
  induction h with
  | nil => exact ⟨.nil, nofun⟩
  | @last ty ha =>
    obtain ⟨h1, h2, h3, h4⟩ := readsAs_scans hc ha.2 (by simp)
    refine ⟨?_, ?_⟩
    · have := Chain.cons (f := []) (s := []) ⟨h1, h2, fun x k e => ha.1 ⟨x, k, e⟩, h3⟩ h4 follows_nil (fun _ => nofun) .nil .nil
      simpa using this
    · rintro _ _ ⟨rfl, rfl⟩
      exact ⟨h3, List.prefix_refl _⟩
  | @gap ty tys f s ha hg _ ih =>
    obtain ⟨h1, h2, h3, h4⟩ := readsAs_scans hc ha.2 (by simp)
    rw [List.append_assoc]
    refine ⟨?_, ?_⟩
    · exact .cons ⟨h1, h2, fun x k e => ha.1 ⟨x, k, e⟩, h3⟩ h4 (follows_gap hg) (fun _ => long_gap hg) hg.1 ih.1
    · rintro _ _ ⟨rfl, rfl⟩
      exact ⟨h3, List.prefix_append _ _⟩
  | @touching ty ty' tys s ha _ ih =>
    obtain ⟨h1, h2, h3, h4⟩ := readsAs_scans hc ha.2.1 (by simp)
    obtain ⟨h5, r, rfl⟩ := ih.2 _ _ rfl
    simp only [List.flatMap_cons, List.flatMap_nil, List.append_nil] at h4
    refine ⟨?_, ?_⟩
    · refine .cons (f := []) ⟨h1, h2, fun x k e => ha.1 ⟨x, k, e⟩, h3⟩ h4 ⟨.inl ?_⟩ (fun e ho => opensLong_stop (ha.2.2 e) ho) .nil ih.1
      cases hd : ty'.display with
      | nil => exact absurd hd h5
      | cons _ _ => rfl
    · rintro _ _ ⟨rfl, rfl⟩
      exact ⟨h3, List.prefix_append _ _⟩

end FM
