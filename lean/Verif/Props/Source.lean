import Verif.Proofs.Attach
import Verif.Props.Lexical
import Verif.Props.Complete

/-!
# From characters to trees: C09, C54
-/

namespace FM.Props
open FM FM.Spec FM.Parser FM.Parser.Clean

variable {c : Cfg} {source : Text} {rs : List (LexRes TokRef)} {ast : Ast}

/-! ## C09 -/

/-- **C09, both directions.**  The trailing trivia of a token is all trivia up to and including the end of the line (but not
from a comment of CfxLua on): what the next token has in front of it begins where this stops. -/
theorem trivia_divided (hc : c.Reachable) {a b : List (LexRes TokRef)} {x : LexRes TokRef} {t u : TokRef}
    (h : lexAll c source = .ok (a ++ x :: .ok u :: b)) (hx : x = .ok t ∨ ∃ es, x = .recovered t es) :
    restOfLine (t.trailing ++ u.flat) = (t.trailing, u.flat) := lexAll_divided hc.good h t u hx rfl

example : ∃ t u e, lexAll cfg51 c!"a --b\n\n--[[c]] d" = .ok ([] ++ .ok t :: .ok u :: [.ok e]) ∧ t.trailing.map Token.display = [c!" ", c!"--b", c!"\n"] ∧
    u.leading.map Token.display = [c!"\n", c!"--[[c]]", c!" "] := ⟨_, _, _, rfl, by decide, by decide⟩

/-- A comment of CfxLua belongs to the next token, even on the same line. -/
example : ∃ t u e, lexAll allCfg c!"a /*c*/ --d\nb" = .ok ([] ++ .ok t :: .ok u :: [.ok e]) ∧ t.trailing.map Token.display = [c!" "] ∧
    u.leading.map Token.display = [c!"/*c*/", c!" ", c!"--d", c!"\n"] := ⟨_, _, _, rfl, by decide, by decide⟩

/-! ## C54 -/

/-- The references of a stream without errors. -/
theorem clean_attaches (hc : c.Reachable) (hl : lexAll c source = .ok rs) (he : errorsOf rs = []) (hs : ShebangKept source rs) :
    Attaches (flatTokens rs) (tokensOf rs) := by
  obtain ⟨us, rfl⟩ := lexAll_allOk hc.good hl he
  have ht : tokensOf (us.map .ok) = us := by simp [tokensOf, List.filterMap_map, Function.comp_def]
  rw [flatTokens, ht]
  refine attaches_of us ?_ ?_ ?_
  · rintro a x y b rfl
    exact trivia_divided hc (a := a.map .ok) (b := b.map .ok) (x := .ok x) (by simpa using hl) (.inl rfl)
  · intro u hu
    obtain ⟨h1, h2, h3, -⟩ := trivia_attachment hc hl (t := u) (by rw [ht]; exact hu)
    exact ⟨h3, fun x hx => (List.mem_append.1 hx).elim (h1 x) (h2 x)⟩
  · obtain ⟨init, t, h1, -, h2, -⟩ := eof_once_last hc hl hs
    rw [ht] at h1
    subst h1
    intro u hu
    simp only [List.getLast?_append, List.getLast?_singleton, Option.some_or] at hu
    cases hu
    exact h2

/-- **C54, tokens.**  The token references, with their positions and their trivia, of a source in which the tokenizer
finds no error are exactly those the source consists of. -/
theorem tokenizes_iff (hc : c.Reachable) {refs : List TokRef} :
    (∃ rs, lexAll c source = .ok rs ∧ errorsOf rs = [] ∧ ShebangKept source rs ∧ tokensOf rs = refs) ↔ Tokenizes c source refs := by
  have key : ∀ {rs}, lexAll c source = .ok rs → errorsOf rs = [] → ShebangKept source rs →
      place [] ((flatTokens rs).map Token.type) = flatTokens rs := by
    intro rs hl he hs
    obtain ⟨pre, l, hat, hrun, -, hk⟩ := lexAll_run hc.good hl
    obtain ⟨rfl, -⟩ := hk hs
    exact placed_place (hrun.noErr hat he).2
  constructor
  · rintro ⟨rs, hl, he, hs, rfl⟩
    refine ⟨_, (lexical_grammar hc).1 ⟨rs, hl, he, hs, rfl⟩, ?_⟩
    rw [key hl he hs]
    exact clean_attaches hc hl he hs
  · rintro ⟨tys, h1, h2⟩
    obtain ⟨rs, hl, he, hs, rfl⟩ := (lexical_grammar hc).2 h1
    refine ⟨rs, hl, he, hs, ?_⟩
    rw [key hl he hs] at h2
    exact attaches_unique h2 (clean_attaches hc hl he hs)

/-- **C54.**  A source that consists of the tokens of a tree of the grammar, in Luau with the reading that is meant, is
accepted, and the result is that tree. -/
theorem source_accepted (hc : c.Reachable) (ht : Tokenizes c source (ast.nodes.flat ++ [ast.eof]))
    (hg : Conforms c (.cat .block) ast.nodes) (hp : c.has .luau = true → ast.nodes.Every Chosen) : parse c source = .ok (.ok ast) := by
  obtain ⟨rs, hl, he, -, h⟩ := (tokenizes_iff hc).2 ht
  exact chosen_accepted hc hl he h hg hp

/-- **C54, both directions.**  The sources without a `#!` line that are accepted without skipping anything are exactly those
that consist of the tokens of a tree of the grammar, in Luau with the reading that is meant, and at most one superfluous
last statement.  No part of the tokenizer or parser occurs on the right. -/
theorem source_accepted_iff (hc : c.Reachable) (hs : ¬ HasShebang source) :
    parseFallible c source = .ok ⟨ast, [], 0⟩ ↔
      Conforms c (.cat .block) ast.nodes ∧ (c.has .luau = true → ast.nodes.Every Chosen) ∧
      ∃ dropped, Tokenizes c source (ast.nodes.flat ++ (dropped ++ [ast.eof])) ∧
        (dropped = [] ∨ HasLast ast.nodes ∧ Superfluous c ast.nodes dropped) := by
  constructor
  · intro h
    obtain ⟨rs, hl, -⟩ := parseFallible_ok h
    obtain ⟨he, h1, h2, dropped, h3, h4⟩ := (chosen_iff hc hl).1 h
    exact ⟨h1, h2, dropped, (tokenizes_iff hc).1 ⟨rs, hl, he, shebangKept_of_no_shebang hs rs, h3⟩, h4⟩
  · rintro ⟨h1, h2, dropped, h3, h4⟩
    obtain ⟨rs, hl, he, -, h5⟩ := (tokenizes_iff hc).2 h3
    exact (chosen_iff hc hl).2 ⟨he, h1, h2, dropped, h5, h4⟩

/-- A source consists of the tokens of at most one tree of the grammar with the reading that is meant. -/
theorem source_unambiguous (hc : c.Reachable) {a b : Ast} (ha : Tokenizes c source (a.nodes.flat ++ [a.eof]))
    (hb : Tokenizes c source (b.nodes.flat ++ [b.eof])) (hga : Conforms c (.cat .block) a.nodes) (hgb : Conforms c (.cat .block) b.nodes)
    (hpa : c.has .luau = true → a.nodes.Every Chosen) (hpb : c.has .luau = true → b.nodes.Every Chosen) : a = b := by
  have h1 := source_accepted hc ha hga hpa
  rw [source_accepted hc hb hgb hpb] at h1
  cases h1
  rfl

/-- Programs that meet the right-hand side. -/
example : ∃ r, parseFallible cfg51 c!"local x = f{1} -- c\nreturn x" = .ok r ∧ Conforms cfg51 (.cat .block) r.ast.nodes ∧
    ∃ dropped, Tokenizes cfg51 c!"local x = f{1} -- c\nreturn x" (r.ast.nodes.flat ++ (dropped ++ [r.ast.eof])) := by
  obtain ⟨r, h1, h2, h3⟩ : ∃ r, parseFallible cfg51 c!"local x = f{1} -- c\nreturn x" = .ok r ∧ r.errors.isEmpty = true ∧ r.silent = 0 :=
    Outcome.run (by decide +kernel)
  obtain ⟨ast, es, n⟩ := r
  obtain rfl : es = [] := by simpa using h2
  obtain rfl : n = 0 := h3
  obtain ⟨h4, -, dropped, h5, -⟩ := (source_accepted_iff cfg51_reachable (by decide)).1 h1
  exact ⟨_, h1, h4, dropped, h5⟩

example : ∃ r, parseFallible allCfg c!"type T = A | B local x: T = `a{if b then c else d}` :: T" = .ok r ∧ r.ast.nodes.Every Chosen ∧
    ∃ dropped, Tokenizes allCfg c!"type T = A | B local x: T = `a{if b then c else d}` :: T" (r.ast.nodes.flat ++ (dropped ++ [r.ast.eof])) := by
  obtain ⟨r, h1, h2, h3⟩ : ∃ r, parseFallible allCfg c!"type T = A | B local x: T = `a{if b then c else d}` :: T" = .ok r ∧
    r.errors.isEmpty = true ∧ r.silent = 0 := Outcome.run (by decide +kernel)
  obtain ⟨ast, es, n⟩ := r
  obtain rfl : es = [] := by simpa using h2
  obtain rfl : n = 0 := h3
  obtain ⟨-, h4, dropped, h5, -⟩ := (source_accepted_iff allCfg_reachable (by decide)).1 h1
  exact ⟨_, h1, h4 (by decide), dropped, h5⟩

end FM.Props
