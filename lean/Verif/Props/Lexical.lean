import Verif.Proofs.LexicalChain
import Verif.Props.Parsing

/-!
# Properties of the lexical grammar: C51
-/

namespace FM.Props
open FM FM.Spec FM.Parser

variable {c : Cfg} {source : Text} {tys : List TokenType}

/-- **C51.**  The tokens, white space and comments included, that the tokenizer finds in a source without reporting an
error are exactly those of the lexical grammar. -/
theorem lexical_grammar (hc : c.Reachable) :
    (∃ rs, lexAll c source = .ok rs ∧ errorsOf rs = [] ∧ ShebangKept source rs ∧ (flatTokens rs).map Token.type = tys) ↔
      LexesFile c source tys := lexAll_lexes hc.good

example : LexesFile cfg51 c!"#!lua\nx=[==[]]]==]..-.5e1 --[[c]]--d\n" [.shebang c!"#!lua", .whitespace c!"\n", .identifier c!"x", .symbol .equal,
    .stringLiteral c!"]]" 2 .brackets, .symbol .twoDots, .symbol .minus, .number c!".5e1", .whitespace c!" ", .multiLineComment 0 c!"c",
    .singleLineComment c!"d", .whitespace c!"\n", .eof] :=
  (lexical_grammar cfg51_reachable).1 ⟨_, rfl, by decide, fun _ => ⟨_, _, _, _, rfl, rfl, rfl, _, rfl⟩, by decide⟩

/-- The brace that ends the value of an interpolated string is told from the brace that ends a table. -/
example : LexesFile allCfg c!"`a\\{{{0x1_fLL}}`//=1b" [.interpolated c!"a\\{" .begin, .symbol .leftBrace, .number c!"0x1_fLL", .symbol .rightBrace,
    .interpolated [] .end_, .symbol .doubleSlashEqual, .number c!"1", .identifier c!"b", .eof] :=
  (lexical_grammar allCfg_reachable).1 ⟨_, rfl, by decide, (fun h => by cases h), by decide⟩

/-- **C51, without ambiguity.**  The lexical grammar divides a source in at most one way. -/
theorem lexical_grammar_unambiguous (hc : c.Reachable) {tys' : List TokenType} (h : LexesFile c source tys) (h' : LexesFile c source tys') :
    tys = tys' := by
  obtain ⟨rs, h1, -, -, rfl⟩ := (lexical_grammar hc).2 h
  obtain ⟨rs', h1', -, -, rfl⟩ := (lexical_grammar hc).2 h'
  rw [h1] at h1'
  cases h1'
  rfl

/-- A text the lexical grammar does not divide. -/
example : ∃ rs, lexAll cfg51 c!"x = 0x" = .ok rs ∧ errorsOf rs ≠ [] := ⟨_, rfl, by decide⟩
example : ¬ LexesFile cfg51 c!"x = 0x" tys := by
  intro h
  obtain ⟨rs, h1, h2, -⟩ := (lexical_grammar cfg51_reachable).2 h
  cases h1
  revert h2
  decide

/-- **C51, for the parser.**  A source that is accepted is divided by the lexical grammar. -/
theorem accepted_lexes (hc : c.Reachable) (hs : ¬ HasShebang source) {ast : Ast} (h : parse c source = .ok (.ok ast)) :
    ∃ tys, LexesFile c source tys := by
  obtain ⟨r, h1, h2, -⟩ := parse_ok_iff.1 h
  obtain ⟨rs, hl, -⟩ := parseFallible_ok h1
  have he : errorsOf rs = [] := by rw [← tokenizer_errors_reported hc hl h1, h2]; rfl
  exact ⟨_, (lexical_grammar hc).1 ⟨rs, hl, he, fun h => absurd h hs, rfl⟩⟩

end FM.Props
