import Verif.Proofs.FirstError
import Verif.Props.Lexical
import Verif.Props.Tokenizer
import Verif.Props.Parsing

/-! # C71: the first error of the tokenizer is where the source stops being made of tokens -/

namespace FM.Props
open FM FM.Spec FM.Parser

variable {c : Cfg} {source : Text}

/-- **C71.** If a source begins with tokens and is stuck behind them, the tokenizer reports errors, and the first one starts
exactly there. -/
theorem first_error (hc : c.Reachable) (hs : ¬ HasShebang source) {rs : List (LexRes TokRef)} (h : lexAll c source = .ok rs) {tys : List TokenType} {bs : List BraceType}
    {rest : Text} (hb : MadeOf c [] source tys bs rest) (hk : Stuck c bs rest) :
    ∃ e es, errorsOf rs = e :: es ∧ e.range.1 = position (written tys) ∧ source = written tys ++ rest := by
  cases he : errorsOf rs with
  | nil =>
    have := (lexical_grammar hc).1 ⟨rs, h, he, fun h => absurd h hs, rfl⟩
    rcases this with ⟨-, h1⟩ | ⟨line, r, _, h1, h2, -⟩
    · exact absurd h1 (stuck_not_lexes hc.good hb hk)
    · refine absurd ?_ hs
      subst h1
      match line, h2 with
      | _ :: _ :: _, h2 => exact h2
  | cons e es =>
    obtain ⟨us, tr, b, r, -, -, g1, g2, g3⟩ := first_error_place hc.good hs h he
    obtain ⟨rfl, rfl, rfl⟩ := stuck_unique hc.good g1 g2 hb hk
    exact ⟨e, es, rfl, g3, begins_text hb⟩

/-- If the tokenizer reports errors there is such a place: all results in front of it are tokens without errors, and only
trivia is between them and the place. -/
theorem first_error_exists (hc : c.Reachable) (hs : ¬ HasShebang source) {rs : List (LexRes TokRef)} (h : lexAll c source = .ok rs) (he : errorsOf rs ≠ []) :
    ∃ (us : List TokRef) (trivia : List TokenType) (bs : List BraceType) (rest : Text), us.map .ok <+: rs ∧ (∀ ty ∈ trivia, ty.isTrivia = true) ∧
      MadeOf c [] source ((us.flatMap TokRef.flat).map Token.type ++ trivia) bs rest ∧ Stuck c bs rest := by
  cases hr : errorsOf rs with
  | nil => exact absurd hr he
  | cons e es =>
    obtain ⟨us, tr, b, r, g1, g2, g3, g4, -⟩ := first_error_place hc.good hs h hr
    exact ⟨us, tr, b, r, g1, g2, g3, g4⟩

/-- The place is determined by the source. -/
theorem first_error_unique (hc : c.Reachable) {tys tys' : List TokenType} {bs bs' : List BraceType} {rest rest' : Text} (h : MadeOf c [] source tys bs rest)
    (hk : Stuck c bs rest) (h' : MadeOf c [] source tys' bs' rest') (hk' : Stuck c bs' rest') : tys = tys' ∧ bs = bs' ∧ rest = rest' :=
  stuck_unique hc.good h hk h' hk'

/-- A source either is made of tokens or is stuck, and the tokenizer says which. -/
theorem tokens_or_stuck (hc : c.Reachable) (hs : ¬ HasShebang source) {rs : List (LexRes TokRef)} (h : lexAll c source = .ok rs) :
    (errorsOf rs = [] ↔ ∃ tys, Lexes c [] source tys) ∧ (errorsOf rs ≠ [] ↔ ∃ tys bs rest, MadeOf c [] source tys bs rest ∧ Stuck c bs rest) := by
  have back : (∃ tys bs rest, MadeOf c [] source tys bs rest ∧ Stuck c bs rest) → errorsOf rs ≠ [] := by
    rintro ⟨tys, bs, rest, h1, h2⟩ he
    obtain ⟨e, es, h3, -⟩ := first_error hc hs h h1 h2
    rw [he] at h3
    cases h3
  have forth : errorsOf rs ≠ [] → ∃ tys bs rest, MadeOf c [] source tys bs rest ∧ Stuck c bs rest := by
    intro he
    obtain ⟨us, tr, bs, rest, -, -, h1, h2⟩ := first_error_exists hc hs h he
    exact ⟨_, bs, rest, h1, h2⟩
  refine ⟨⟨fun he => ?_, ?_⟩, forth, back⟩
  · rcases (lexical_grammar hc).1 ⟨rs, h, he, fun h => absurd h hs, rfl⟩ with ⟨-, h1⟩ | ⟨line, r, _, h1, h2, -⟩
    · exact ⟨_, h1⟩
    · refine absurd ?_ hs
      subst h1
      match line, h2 with
      | _ :: _ :: _, h2 => exact h2
  · rintro ⟨tys, h1⟩
    refine Decidable.byContradiction fun he => ?_
    obtain ⟨tys', bs, rest, h2, h3⟩ := forth he
    exact stuck_not_lexes hc.good h2 h3 h1

/-- `x = 0x -- y` is stuck at the number, behind a name, a sign and white space; the error is at the fifth byte. -/
example : ∃ rs us bs rest, lexAll cfg51 c!"x = 0x -- y" = .ok rs ∧ errorsOf rs = [⟨.invalidNumber, ⟨4, 1, 5⟩, ⟨6, 1, 7⟩⟩] ∧
    MadeOf cfg51 [] c!"x = 0x -- y" us bs rest ∧ Stuck cfg51 bs rest ∧ position (written us) = ⟨4, 1, 5⟩ := by
  obtain ⟨rs, hl, he⟩ : ∃ rs, lexAll cfg51 c!"x = 0x -- y" = .ok rs ∧ errorsOf rs = [⟨.invalidNumber, ⟨4, 1, 5⟩, ⟨6, 1, 7⟩⟩] := ⟨_, rfl, by decide⟩
  obtain ⟨us, tr, bs, rest, -, -, h1, h2⟩ := first_error_exists cfg51_reachable (by decide) hl (by rw [he]; simp)
  obtain ⟨e, es, h3, h4, -⟩ := first_error cfg51_reachable (by decide) hl h1 h2
  rw [he] at h3
  cases h3
  exact ⟨_, _, _, _, hl, he, h1, h2, h4.symm⟩

/-- Nothing can be read at a `$`, nor at a string that is not closed. -/
example : (∃ tys bs rest, MadeOf cfg51 [] c!"f($)" tys bs rest ∧ Stuck cfg51 bs rest) ∧ (∃ tys bs rest, MadeOf cfg51 [] c!"f 'a" tys bs rest ∧ Stuck cfg51 bs rest) :=
  ⟨(tokens_or_stuck cfg51_reachable (by decide) rfl).2.1 (by decide), (tokens_or_stuck cfg51_reachable (by decide) rfl).2.1 (by decide)⟩

/-- The parser reports the same error. -/
theorem first_error_parsed (hc : c.Reachable) (hs : ¬ HasShebang source) {r : AstResult} (h : parseFallible c source = .ok r) {tys : List TokenType} {bs : List BraceType}
    {rest : Text} (hb : MadeOf c [] source tys bs rest) (hk : Stuck c bs rest) :
    ∃ e es, tokenizerErrors r.errors = e :: es ∧ e.range.1 = position (written tys) := by
  obtain ⟨rs, hl, -⟩ := parseFallible_ok h
  obtain ⟨e, es, h1, h2, -⟩ := first_error hc hs hl hb hk
  exact ⟨e, es, by rw [tokenizer_errors_reported hc hl h, h1], h2⟩

/-! ## Tokens without errors, in sources with or without errors -/

/-- **C71, tokens.** Every token that is returned without an error, and every piece of white space and every comment around
it, is one of the lexical grammar at the place where it says it is, whatever else the source contains. -/
theorem ok_token_lexeme (hc : c.Reachable) (hs : ¬ HasShebang source) {rs : List (LexRes TokRef)} (h : lexAll c source = .ok rs) {u : TokRef} (hu : .ok u ∈ rs) {t : Token}
    (ht : t ∈ u.leading ++ [u.token] ++ u.trailing) (he : t.type ≠ .eof) :
    ∃ before rest bs bs', source = before ++ t.type.display ++ rest ∧ t.start = position before ∧ Lexeme c bs t.type rest bs' :=
  (ok_tokens hc.good hs h hu (by simpa [TokRef.flat] using ht)).resolve_left he

/-- The tokens around a `$` are tokens of the grammar. -/
example : ∃ rs u, lexAll cfg51 c!"0x1F $ y" = .ok rs ∧ errorsOf rs ≠ [] ∧ .ok u ∈ rs ∧ u.token.type = .number c!"0x1F" :=
  ⟨_, _, rfl, by decide, List.mem_cons_self, rfl⟩

/-- Numbers in particular (C15): a number without an error is a decimal, hexadecimal or binary number of the grammar that
goes on as far as it can. -/
theorem number_grammar (hc : c.Reachable) (hs : ¬ HasShebang source) {rs : List (LexRes TokRef)} (h : lexAll c source = .ok rs) {u : TokRef} (hu : .ok u ∈ rs) {n : Text}
    (hn : u.token.type = .number n) :
    ∃ before rest, source = before ++ n ++ rest ∧ u.token.start = position before ∧ (Decimal c n rest ∨ Hexadecimal c n rest ∨ Binary c n rest) := by
  obtain ⟨before, rest, bs, bs', h1, h2, h3⟩ := ok_token_lexeme hc hs h hu (t := u.token) (by simp) (by rw [hn]; simp)
  rw [hn] at h1 h3
  exact ⟨before, rest, h1, h2, h3.1⟩

end FM.Props
