import Verif.Proofs.NestingAll
import Verif.Props.Tokenizer
import Verif.Proofs.Eval

/-!
# Properties of interpolated strings: C41
-/

namespace FM.Props
open FM FM.Spec

variable {c : Cfg} {source : Text} {rs : List (LexRes TokRef)} {before after : List TokenType} {ty : TokenType}

/-- **C41.**  A middle or end section only occurs where an expression of an interpolated string is open and everything
opened in the expression is closed: it belongs to the innermost begin section that is not closed yet.  This holds for
every source, with or without tokenizer errors. -/
theorem sections_nest (hc : c.Reachable) (hlu : c.has .luau = true) (hl : lexAll c source = .ok rs)
    (ht : (tokensOf rs).map (·.token.type) = before ++ ty :: after) {x : Text} {k : InterpKind} (hty : ty = .interpolated x k)
    (hk : k = .middle ∨ k = .end_) : InString before :=
  (lexAll_nests hc.good hlu hl ht).1 x k hty hk

/-- **C41.**  Conversely, a `}` token never occurs there: the brace that closes the expression is part of a section. -/
theorem brace_closes_brace (hc : c.Reachable) (hlu : c.has .luau = true) (hl : lexAll c source = .ok rs)
    (ht : (tokensOf rs).map (·.token.type) = before ++ .symbol .rightBrace :: after) : ¬ InString before :=
  (lexAll_nests hc.good hlu hl ht).2 rfl

/-- A source with nested strings and braces. -/
example : ∃ rs, lexAll cfgLuau c!"x = `a{ {1, `b{y}`} }c{z}`" = .ok rs ∧ errorsOf rs = [] ∧
    (tokensOf rs).map (·.token.type) = [.identifier c!"x", .symbol .equal, .interpolated c!"a" .begin, .symbol .leftBrace, .number c!"1", .symbol .comma,
      .interpolated c!"b" .begin, .identifier c!"y", .interpolated [] .end_, .symbol .rightBrace] ++ .interpolated c!"c" .middle :: [.identifier c!"z", .interpolated [] .end_, .eof] :=
  ⟨_, rfl, by decide, by decide⟩

end FM.Props
