import Verif.Proofs.Recovery
import Verif.Props.Errors

/-!
# C68: what the errors of error recovery say
-/

namespace FM.Props
open FM FM.Spec FM.Parser

variable {c : Cfg} {source : Text} {rs : List (LexRes TokRef)} {r : AstResult}

/-- **C68.** Every syntax error says something. -/
theorem errors_explained (h : parseFallible c source = .ok r) {t : Token} {m : String} {x : Option (Position × Position)}
    (he : .ast t m x ∈ r.errors) : m ≠ "" := by
  obtain ⟨rs, -, h⟩ := parseFallible_ok h
  exact ((Proofs.Recovery.parseTokens_sofar h).2.1 _ he).1

/-- **C68.** Two errors in a row never both say that a token begins no statement. -/
theorem stray_once (h : parseFallible c source = .ok r) {pre post : List Err} {a b : Err} (he : r.errors = pre ++ a :: b :: post) :
    strayToken a = none ∨ strayToken b = none := by
  obtain ⟨rs, -, h⟩ := parseFallible_ok h
  have h1 := (Proofs.Recovery.parseTokens_sofar h).1
  rw [he] at h1
  exact h1.neighbours

/-- **C68.** The tokens that are said to begin no statement are tokens of the source, in the order of the source, none
of them twice. -/
theorem stray_in_order (hl : lexAll c source = .ok rs) (h : parseFallible c source = .ok r) :
    (r.errors.filterMap strayToken).Sublist ((tokensOf rs).map (·.token)) := by
  obtain ⟨rs', hl', h⟩ := parseFallible_ok h
  rw [hl] at hl'
  cases hl'
  exact (Proofs.Recovery.parseTokens_sofar h).2.2

/-- **C68.** The end of the file is never said to begin no statement, and such an error covers just the token. -/
theorem stray_not_end (h : parseFallible c source = .ok r) {t : Token} {x : Option (Position × Position)}
    (he : .ast t strayMessage x ∈ r.errors) : t.type ≠ .eof ∧ x = none := by
  obtain ⟨rs, -, h⟩ := parseFallible_ok h
  obtain ⟨h1, h2⟩ := ((Proofs.Recovery.parseTokens_sofar h).2.1 _ he).2 rfl
  exact ⟨fun h3 => h2 (by rw [h3]; rfl), h1⟩

/-- Three tokens that begin no statement with characters that begin no token between them, and a missing `)`. -/
example : ∃ rs r, lexAll cfg51 c!") ] $ ) ] $ ] f(" = .ok rs ∧ parseFallible cfg51 c!") ] $ ) ] $ ] f(" = .ok r ∧
    r.errors.length = 6 ∧ (r.errors.filterMap strayToken).map (·.start.bytes) = [0, 6, 12] :=
  Outcome.run₂ (by decide +kernel)

/-- Not every group of such tokens is reported: the second `)` of `) x = 1 ) y = 2` is skipped without an error although
there is a statement between it and the first one.  Only the last error counts, not where it was. -/
theorem stray_unreported : ∃ rs r, lexAll cfg51 c!") x = 1 ) y = 2" = .ok rs ∧ parseFallible cfg51 c!") x = 1 ) y = 2" = .ok r ∧
    (r.errors.filterMap strayToken).map (·.start.bytes) = [0] ∧ r.errors.length = 1 ∧ r.ast.nodes.display = c!"x = 1 y = 2" :=
  Outcome.run₂ (by decide +kernel)

end FM.Props
