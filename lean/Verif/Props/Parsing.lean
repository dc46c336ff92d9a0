import Verif.Proofs.Parser.Source
import Verif.Proofs.Eval

/-!
# Properties of parsing any source: C20, C21, C22, C36, C37
-/

namespace FM.Props
open FM FM.Spec FM.Parser

variable {c : Cfg} {source : Text} {rs : List (LexRes TokRef)} {r : AstResult} {ast : Ast}

/-- Lua 5.3 compiled in, Luau active, Lua 5.3 not active. -/
def cfgLuauOnly : Cfg := ⟨⟨true, true, true, true, true, true⟩, .only .luau⟩

theorem cfgLuauOnly_reachable : cfgLuauOnly.Reachable := ⟨by decide, .only .luau rfl⟩

/-! ## C20 -/

/-- **C20.** `parse` returns an Ast exactly when `parse_fallible` reports no error, and then it is the same Ast. -/
theorem parse_ok_iff : parse c source = .ok (.ok ast) ↔
    ∃ r, parseFallible c source = .ok r ∧ r.errors = [] ∧ r.ast = ast := by
  unfold parse
  cases parseFallible c source with
  | ok r =>
    simp only [Outcome.bind, AstResult.intoResult]
    cases he : r.errors <;> simp [he]
  | panic => simp [Outcome.bind]
  | diverge => simp [Outcome.bind]

/-- **C20.** Otherwise `parse` returns exactly the errors reported by `parse_fallible`. -/
theorem parse_error_iff {es : List Err} : parse c source = .ok (.error es) ↔
    ∃ r, parseFallible c source = .ok r ∧ r.errors = es ∧ es ≠ [] := by
  unfold parse
  cases parseFallible c source with
  | ok r =>
    simp only [Outcome.bind, AstResult.intoResult]
    cases he : r.errors <;> simp [he]
    rintro rfl; simp
  | panic => simp [Outcome.bind]
  | diverge => simp [Outcome.bind]

/-- **C20.** The tokenizer errors reported by `parse_fallible` are exactly those of the token stream: none is lost,
repeated or reordered. -/
theorem tokenizer_errors_reported (hc : c.Reachable) (hl : lexAll c source = .ok rs) (h : parseFallible c source = .ok r) :
    tokenizerErrors r.errors = errorsOf rs := by
  obtain ⟨rs', hl', h⟩ := parseFallible_ok h
  rw [hl] at hl'
  cases hl'
  have := parse_cases hc hl
  rw [h] at this
  rw [← this.2.2.1, tokenizerErrors]
  congr 1

/-- **C20.** A source is accepted only if its token stream has no error. -/
theorem parse_ok_no_tokenizer_error (hc : c.Reachable) (hl : lexAll c source = .ok rs) (h : parse c source = .ok (.ok ast)) :
    errorsOf rs = [] := by
  obtain ⟨r, hr, he, -⟩ := parse_ok_iff.1 h
  rw [← tokenizer_errors_reported hc hl hr, he]; rfl

/-- An accepted source. -/
example : ∃ ast, parse cfg51 c!"local x = f(1) -- c\n" = .ok (.ok ast) ∧ ast.nodes.flat ≠ [] := by
  obtain ⟨r, h1, h2, h3⟩ : ∃ r, parseFallible cfg51 c!"local x = f(1) -- c\n" = .ok r ∧ r.errors.isEmpty = true ∧
    r.ast.nodes.flat ≠ [] := Outcome.run (by decide +kernel)
  exact ⟨r.ast, parse_ok_iff.2 ⟨r, h1, List.isEmpty_iff.1 h2, rfl⟩, h3⟩

/-- A source with a tokenizer error and a syntax error. -/
example : ∃ rs r, lexAll cfg51 c!"x = $ local" = .ok rs ∧ parseFallible cfg51 c!"x = $ local" = .ok r ∧
    errorsOf rs ≠ [] ∧ 1 < r.errors.length := Outcome.run₂ (by decide +kernel)

/-! ## C21 -/

/-- **C21** (partial).  `parse_fallible` does not panic, provided the tokenizer does not (`BackticksOk`), the source
has no `#!` line, and either Luau is not active, or there is no fatal tokenizer error and the operators of Lua 5.3
are not compiled in without being active.  Missing: the other sources, some of which make it panic (below). -/
theorem parse_no_panic_partial (hc : c.Reachable) (hb : BackticksOk c source) (hs : ¬ HasShebang source)
    (hn : ∀ rs, lexAll c source = .ok rs → NoPanicReason c rs) : ∃ r, parseFallible c source = .ok r := by
  obtain ⟨rs, hl⟩ := tokenize_no_panic_partial hc hb
  have h := parse_cases hc hl
  unfold parseFallible
  rw [hl]
  show ∃ r, parseTokens c rs = .ok r
  split at h
  · rename_i r hr; exact ⟨r, hr⟩
  · rcases h with ⟨hlu, h⟩ | ⟨-, h⟩
    · rcases hn rs hl with hn | ⟨h1, h2⟩
      · have hlu : c.has .luau = true := hlu
        rw [hn] at hlu; cases hlu
      · rcases h with ⟨es, h⟩ | ⟨h, h'⟩
        · exact absurd h (h1 es)
        · have h' : c.has .lua53 = false := h'
          rw [h2 h] at h'; cases h'
    · exact absurd h hs
  · exact h.elim

/-- **C21, without Luau.**  If Luau is not active, the parser panics on no source without `#!` and backticks. -/
theorem parse_no_panic_lua_partial (hc : c.Reachable) (hlu : c.has .luau = false) (hb : '`' ∉ source)
    (hs : ¬ HasShebang source) : ∃ r, parseFallible c source = .ok r :=
  parse_no_panic_partial hc (.inr (.inr hb)) hs fun _ _ => .inl hlu

/-- **C21, kept shebang.**  A `#!` line does no harm if it is kept. -/
theorem parse_no_panic_stream_partial (hc : c.Reachable) (hl : lexAll c source = .ok rs) (hne : rs ≠ [])
    (hn : NoPanicReason c rs) : ∃ r, parseFallible c source = .ok r := by
  have h := parse_cases hc hl
  unfold parseFallible
  rw [hl]
  show ∃ r, parseTokens c rs = .ok r
  split at h
  · rename_i r hr; exact ⟨r, hr⟩
  · rcases h with ⟨hlu, h⟩ | ⟨h, -⟩
    · rcases hn with hn | ⟨h1, h2⟩
      · have hlu : c.has .luau = true := hlu
        rw [hn] at hlu; cases hlu
      · rcases h with ⟨es, h⟩ | ⟨h, h'⟩
        · exact absurd h (h1 es)
        · have h' : c.has .lua53 = false := h'
          rw [h2 h] at h'; cases h'
    · exact absurd h hne
  · exact h.elim

example : BackticksOk cfg51 c!"if x == 2 code()" ∧ ¬ HasShebang c!"if x == 2 code()" ∧
    ∀ rs, NoPanicReason cfg51 rs := ⟨.inr (.inr (by decide)), by decide, fun _ => .inl (by decide)⟩

example : ∃ rs, lexAll cfgLuau c!"type X = {[" = .ok rs ∧ rs ≠ [] ∧ NoPanicReason cfgLuau rs := by
  obtain ⟨rs, h1, h2, h3⟩ : ∃ rs, lexAll cfgLuau c!"type X = {[" = .ok rs ∧ rs ≠ [] ∧
      rs.all (fun | .fatal _ => false | _ => true) = true := Outcome.run (by decide +kernel)
  exact ⟨rs, h1, h2, .inr ⟨fun es h => (by simpa using List.all_eq_true.1 h3 _ h), by decide⟩⟩

/-- **C21 does not hold**: an unfinished comment after a `#!` line, in any version. -/
theorem parse_panics_shebang : parseFallible cfg51 c!"#!x\n--[[" = .panic := Outcome.eq_panic (by decide +kernel)

/-- **C21 does not hold**: with Luau active, an unexpected character after `@`, in a type, … -/
theorem parse_panics_luau : ∀ s ∈ [c!"@$", c!"local x: a.$", c!"local x: number $", c!"type X = {[$", c!"type X = {[\"a\"]: $",
    c!"type X<A=B,C...$"], parseFallible cfgLuau s = .panic := by
  intro s hs
  refine Outcome.eq_panic ?_
  revert s
  decide +kernel

/-- **C21 does not hold**: with Lua 5.3 compiled in and Luau alone active, a type union or an intersection operator in
an expression. -/
theorem parse_panics_operator : parseFallible cfgLuauOnly c!"x = a & b" = .panic := Outcome.eq_panic (by decide +kernel)

/-! ## C22 -/

/-- **C22.** `parse_fallible` terminates on every source: the number of tokens bounds the recursion depth and the number of
iterations of every loop. -/
theorem parse_terminates (hc : c.Reachable) : parseFallible c source ≠ .diverge := by
  unfold parseFallible
  intro h
  cases hl : lexAll c source with
  | ok rs =>
    rw [hl] at h
    have := parse_cases hc hl
    have h : parseTokens c rs = .diverge := h
    rw [h] at this
    exact this
  | panic => rw [hl] at h; cases h
  | diverge => exact tokenize_terminates hc source hl

example : ∃ r, parseFallible cfg51 c!"f({" = .ok r ∧ r.errors.length = 2 :=
  Outcome.run (by decide +kernel)

/-! ## C36 -/

/-- **C36** (partial).  The token of a syntax error is a token of the source or one invented by error recovery.  Missing:
that it is never an invented one, which is not so (next theorem). -/
theorem error_tokens_partial (hc : c.Reachable) (hl : lexAll c source = .ok rs) (h : parseFallible c source = .ok r) :
    ∀ x ∈ errorTokens r.errors, ∃ t, t.token = x ∧ (t ∈ tokensOf rs ∨ Invented t) := by
  obtain ⟨rs', hl', h⟩ := parseFallible_ok h
  rw [hl] at hl'
  cases hl'
  have := parse_cases hc hl
  rw [h] at this
  intro x hx
  obtain ⟨e, he, hx⟩ := List.mem_filterMap.1 hx
  cases e with
  | tokenizer e => cases hx
  | ast t m n =>
    cases hx
    obtain ⟨u, hu, rfl, -⟩ := this.2.2.2.1 _ he
    exact ⟨u, rfl, hu.imp_right Phantom.invented⟩

/-- **C36 does not hold**: the error in `x = {{; do}` points to an invented `}` at the start of the file. -/
theorem error_token_invented : ∃ rs r, lexAll cfg51 c!"x = {{; do}" = .ok rs ∧
    parseFallible cfg51 c!"x = {{; do}" = .ok r ∧ ∃ x ∈ errorTokens r.errors, ∀ t ∈ tokensOf rs, t.token ≠ x :=
  Outcome.run₂ (by decide +kernel)

example : ∃ r, parseFallible cfg51 c!"if x == 2 code()" = .ok r ∧ errorTokens r.errors ≠ [] :=
  Outcome.run (by decide +kernel)

/-! ## C37 -/

/-- **C37** (partial).  Every token of the Ast is a token of the source or one of nineteen invented ones, which claim to
start within the first two lines.  Missing: the invented tokens have a null position, which is not so (next theorem). -/
theorem ast_tokens_partial (hc : c.Reachable) (hl : lexAll c source = .ok rs) (h : parseFallible c source = .ok r) :
    (∀ t ∈ r.ast.nodes.flat, t ∈ tokensOf rs ∨ Invented t) ∧ (tokensOf rs).getLast? = some r.ast.eof := by
  obtain ⟨rs', hl', h⟩ := parseFallible_ok h
  rw [hl] at hl'
  cases hl'
  have := parse_cases hc hl
  rw [h] at this
  obtain ⟨hty, ⟨pre, x, hx, hx', -⟩, -⟩ := this
  refine ⟨fun t ht => (tokens_known _ ⟨_, hty⟩ t (mem_flat t _ ⟨_, hty⟩ ht)).imp_right Phantom.invented, ?_⟩
  rw [hx, tokensOf, List.filterMap_append]
  cases x with
  | fatal es => cases hx'
  | ok t => cases hx'; simp
  | recovered t es => cases hx'; simp

/-- **C37 does not hold**: the invented `)` of the Ast for `f(` claims to stand at the first character of the file. -/
theorem phantom_position : ∃ rs r, lexAll cfg51 c!"f(" = .ok rs ∧ parseFallible cfg51 c!"f(" = .ok r ∧
    ∃ t ∈ r.ast.nodes.flat, t ∉ tokensOf rs ∧ t.token.start ≠ nullPosition ∧ t.token.start = ⟨0, 1, 1⟩ :=
  Outcome.run₂ (by decide +kernel)

/-- The example of the documentation, `if x == 2 code()`, which "will produce a phantom `then`", produces no `if` at
all. -/
theorem documented_phantom : ∃ r, parseFallible cfg51 c!"if x == 2 code()" = .ok r ∧ r.ast.nodes.display = c!"code()" :=
  Outcome.run (by decide +kernel)

end FM.Props
