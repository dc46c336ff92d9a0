import Verif.Proofs.Parser.Accept
import Verif.Proofs.Parser.Grammar
import Verif.Props.Parsing

/-!
# Properties of accepted sources: C18, C19, C23, C35, C40, C43

`AstResult.silent` is a ghost counter: how often the parser left a production after consuming tokens, without recording
an error.  Without Luau it is always 0 (`nothing_skipped`); with Luau the theorems assume it, and the witnesses below
show that they do not hold otherwise.
-/

namespace FM.Props
open FM FM.Spec FM.Parser FM.Parser.Clean

variable {c : Cfg} {source : Text} {rs : List (LexRes TokRef)} {r : AstResult} {ast : Ast}

/-- The results of the tokenizer of a source without tokenizer errors are tokens. -/
theorem all_ok_of_no_errors (h : errorsOf rs = [])
    (hf : ∀ es, .fatal es ∈ rs ∨ (∃ t, .recovered t es ∈ rs) → es ≠ []) : rs = (tokensOf rs).map .ok := by
  induction rs with
  | nil => rfl
  | cons x rs ih =>
    have h' : errorsOf rs = [] := (List.append_eq_nil_iff.1 h).2
    have ih := ih h' fun es he => hf es (he.imp (List.mem_cons_of_mem _) fun ⟨t, ht⟩ => ⟨t, List.mem_cons_of_mem _ ht⟩)
    cases x with
    | ok t => simpa [tokensOf] using ih
    | fatal es => exact absurd (List.append_eq_nil_iff.1 h).1 (hf es (.inl (List.mem_cons_self ..)))
    | recovered t es => exact absurd (List.append_eq_nil_iff.1 h).1 (hf es (.inr ⟨t, List.mem_cons_self ..⟩))

/-- The run on an accepted source in which nothing was skipped. -/
theorem accepted_run (hc : c.Reachable) (hl : lexAll c source = .ok rs) (h : parseFallible c source = .ok r)
    (he : r.errors = []) (hs : r.silent = 0) :
    errorsOf rs = [] ∧ ∃ b dropped, r.ast.nodes = b.node ∧ BlkC c b ∧ tokensOf rs = yield b ++ (yield dropped ++ [r.ast.eof]) ∧
      r.ast.eof.isEof = true ∧ OptP (SemiC c .lastStmt) dropped ∧ (b.last = none → dropped = none) := by
  have hne : errorsOf rs = [] := by rw [← tokenizer_errors_reported hc hl h, he]; rfl
  have hok := all_ok_of_no_errors hne fun es hr => failed_results_have_errors hc hl hr
  obtain ⟨rs', hl', h⟩ := parseFallible_ok h
  rw [hl] at hl'
  cases hl'
  rw [hok] at h
  obtain ⟨b, dropped, rest, h1, h2, h3, h4, h5, h6⟩ := parseTokens_clean hc.1 h he hs
  have hrest : rest = [] := by
    rcases lexAll_eof hc.good hl with ⟨rfl, -⟩ | ⟨init, t, h7, -, -, h8, -⟩
    · simp [tokensOf] at h3
    · rw [h7] at h3
      rcases List.eq_nil_or_concat rest with h0 | ⟨rest', t', rfl⟩
      · exact h0
      · have h3' : init ++ [t] = (yield b ++ (yield dropped ++ r.ast.eof :: rest')) ++ [t'] := by simpa using h3
        have := (List.append_inj' h3' rfl).1
        exact absurd (isEof_iff.1 h4) (h8 _ (by rw [this]; simp))
  subst hrest
  exact ⟨hne, b, dropped, h1, h2, h3, h4, h5, h6⟩

/-- What is known of an accepted source in which nothing was skipped. -/
theorem accepted (hc : c.Reachable) (hl : lexAll c source = .ok rs) (h : parseFallible c source = .ok r)
    (he : r.errors = []) (hs : r.silent = 0) :
    Conforms c (.cat .block) r.ast.nodes ∧ ∃ dropped, tokensOf rs = r.ast.nodes.flat ++ (dropped ++ [r.ast.eof]) ∧
      (dropped = [] ∨ HasLast r.ast.nodes ∧ LastStatement c dropped) := by
  obtain ⟨-, b, dropped, h1, h2, h3, h4, h5, h6⟩ := accepted_run hc hl h he hs
  refine ⟨h1 ▸ h2.node.1, yield dropped, by rw [h1, flat_blk]; exact h3, ?_⟩
  cases dropped with
  | none => exact .inl rfl
  | some s =>
    refine .inr ⟨?_, stmtNode s, ?_, flat_stmtNode s⟩
    · cases hb : b.last with
      | none => cases h6 hb
      | some x => exact ⟨_, _, by rw [h1, Blk.node, hb]; rfl⟩
    · exact (optP_some.1 h5).node.1

/-- Without Luau nothing is skipped. -/
theorem nothing_skipped (hc : c.Reachable) (hlu : c.has .luau = false) (h : parseFallible c source = .ok r) :
    r.silent = 0 := by
  obtain ⟨rs, hl, h⟩ := parseFallible_ok h
  have := parse_cases hc hl
  rw [h] at this
  exact this.2.2.2.2 hlu

/-! ## C19 -/

/-- **C19** (partial).  If a source is accepted and nothing is skipped, its tokens are those of the tree, in the order in
which they are printed, followed by Eof: none is missing, added, repeated or changed.  Missing: a second last statement
of the file, which is dropped, so it is only shown that there is at most one, and then the tree has a last statement. -/
theorem accepted_tokens_partial (hc : c.Reachable) (hl : lexAll c source = .ok rs) (h : parseFallible c source = .ok r)
    (he : r.errors = []) (hs : r.silent = 0) :
    ∃ dropped, tokensOf rs = r.ast.nodes.flat ++ (dropped ++ [r.ast.eof]) ∧
      (dropped = [] ∨ HasLast r.ast.nodes ∧ LastStatement c dropped) :=
  (accepted hc hl h he hs).2

/-- **C19** (partial), for `parse` without Luau. -/
theorem parse_tokens_partial (hc : c.Reachable) (hlu : c.has .luau = false) (hl : lexAll c source = .ok rs)
    (h : parse c source = .ok (.ok ast)) :
    ∃ dropped, tokensOf rs = ast.nodes.flat ++ (dropped ++ [ast.eof]) ∧
      (dropped = [] ∨ HasLast ast.nodes ∧ LastStatement c dropped) := by
  obtain ⟨r, hr, he, rfl⟩ := parse_ok_iff.1 h
  exact accepted_tokens_partial hc hl hr he (nothing_skipped hc hlu hr)

/-- **C19, without a last statement.**  If the file does not end with a last statement, its tree has exactly its tokens. -/
theorem parse_tokens_exact_partial (hc : c.Reachable) (hlu : c.has .luau = false) (hl : lexAll c source = .ok rs)
    (h : parse c source = .ok (.ok ast)) (hlast : ¬ HasLast ast.nodes) :
    tokensOf rs = ast.nodes.flat ++ [ast.eof] := by
  obtain ⟨d, h1, rfl | ⟨h2, -⟩⟩ := parse_tokens_partial hc hlu hl h
  · simpa using h1
  · exact absurd h2 hlast

/-- A file that ends with a last statement. -/
example : ∃ rs r, lexAll cfg51 c!"f(1) return x -- c\n" = .ok rs ∧ parseFallible cfg51 c!"f(1) return x -- c\n" = .ok r ∧
    r.errors.isEmpty = true ∧ r.silent = 0 ∧ 6 < (tokensOf rs).length ∧ tokensOf rs = r.ast.nodes.flat ++ [r.ast.eof] :=
  Outcome.run₂ (by decide +kernel)

/-- The claim fails in every version: of two `return` statements the second one is dropped. -/
theorem last_statement_dropped : ∃ rs r, lexAll cfg51 c!"return 1 return 2" = .ok rs ∧
    parseFallible cfg51 c!"return 1 return 2" = .ok r ∧ r.errors.isEmpty = true ∧ r.silent = 0 ∧
    (tokensOf rs).length = 5 ∧ r.ast.display = c!"return 1 " :=
  Outcome.run₂ (by decide +kernel)

/-- With Luau active the parser also skips tokens of unfinished types and expressions without any error. -/
theorem luau_skips_tokens :
    (∃ rs r, lexAll cfgLuau c!"type X = " = .ok rs ∧ parseFallible cfgLuau c!"type X = " = .ok r ∧
      r.errors.isEmpty = true ∧ (tokensOf rs).length = 4 ∧ r.ast.nodes.flat = []) ∧
    ∃ rs r, lexAll cfgLuau c!"f(x::)" = .ok rs ∧ parseFallible cfgLuau c!"f(x::)" = .ok r ∧
      r.errors.isEmpty = true ∧ (tokensOf rs).length = 6 ∧ r.ast.display = c!"f()" :=
  ⟨Outcome.run₂ (by decide +kernel), Outcome.run₂ (by decide +kernel)⟩

/-! ## C18 -/

/-- **C18** (partial).  If a source is accepted and nothing is skipped, the printed Ast is the source without the tokens
dropped; in particular it is the source if the file does not end with a last statement.  Missing: a second last
statement, and a `#!` line that is not kept. -/
theorem accepted_lossless_partial (hc : c.Reachable) (hl : lexAll c source = .ok rs) (h : parseFallible c source = .ok r)
    (he : r.errors = []) (hs : r.silent = 0) (hk : ShebangKept source rs) :
    ∃ dropped, source = r.ast.nodes.display ++ (dropped.flatMap TokRef.display ++ r.ast.eof.display) ∧
      (dropped = [] ∨ HasLast r.ast.nodes ∧ LastStatement c dropped) := by
  obtain ⟨d, h1, h2⟩ := accepted_tokens_partial hc hl h he hs
  refine ⟨d, ?_, h2⟩
  have hne : errorsOf rs = [] := by rw [← tokenizer_errors_reported hc hl h, he]; rfl
  rw [← tokenize_lossless hc hl hne hk, h1]
  simp [Node.display]

/-- **C18** (partial), for `parse` without Luau: a source without `#!` that does not end with a last statement is printed
back exactly. -/
theorem parse_lossless_partial (hc : c.Reachable) (hlu : c.has .luau = false) (h : parse c source = .ok (.ok ast))
    (hk : ¬ HasShebang source) (hlast : ¬ HasLast ast.nodes) : ast.display = source := by
  obtain ⟨r, hr, he, rfl⟩ := parse_ok_iff.1 h
  obtain ⟨rs, hl, -⟩ := parseFallible_ok hr
  obtain ⟨d, h1, rfl | ⟨h2, -⟩⟩ := accepted_lossless_partial hc hl hr he (nothing_skipped hc hlu hr) fun hx => absurd hx hk
  · rw [h1]; simp [Ast.display]
  · exact absurd h2 hlast

/-- **C18** (partial), counting tokens: an accepted source is printed back exactly if its tree has as many tokens. -/
theorem parse_lossless_count_partial (hc : c.Reachable) (hl : lexAll c source = .ok rs) (h : parseFallible c source = .ok r)
    (he : r.errors = []) (hs : r.silent = 0) (hk : ShebangKept source rs)
    (hn : (tokensOf rs).length = r.ast.nodes.flat.length + 1) : r.ast.display = source := by
  obtain ⟨d, h1, -⟩ := accepted_tokens_partial hc hl h he hs
  have hd : d = [] := by
    rw [h1] at hn
    simp only [List.length_append, List.length_cons, List.length_nil] at hn
    exact List.eq_nil_of_length_eq_zero (by omega)
  subst hd
  have hne : errorsOf rs = [] := by rw [← tokenizer_errors_reported hc hl h, he]; rfl
  rw [← tokenize_lossless hc hl hne hk, h1]
  simp [Node.display, Ast.display]

/-- The file of the first example is printed back. -/
example : ∃ rs r, lexAll cfg51 c!"f(1) return x -- c\n" = .ok rs ∧ parseFallible cfg51 c!"f(1) return x -- c\n" = .ok r ∧
    r.errors.isEmpty = true ∧ r.silent = 0 ∧ (tokensOf rs).length = r.ast.nodes.flat.length + 1 :=
  Outcome.run₂ (by decide +kernel)

/-- A `#!` line that ends in front of a symbol is printed back too. -/
example : ∃ r, parseFallible cfg51 c!"#!lua\nf(1)" = .ok r ∧ r.errors.isEmpty = true ∧ r.ast.display = c!"#!lua\nf(1)" :=
  Outcome.run (by decide +kernel)

/-- An erroneous first token after a `#!` line is lost together with the line, and the source is accepted. -/
theorem shebang_lost : ∃ r, parseFallible cfg51 c!"#!x\n$f(1)" = .ok r ∧ r.errors.isEmpty = true ∧
    r.ast.display = c!"f(1)" :=
  Outcome.run (by decide +kernel)

/-! ## C43 -/

/-- **C43** (partial).  If a source is accepted and nothing is skipped, the tree conforms to the grammar of the active
versions.  Missing: Luau sources of which the parser skipped tokens. -/
theorem accepted_grammar_partial (hc : c.Reachable) (h : parseFallible c source = .ok r) (he : r.errors = [])
    (hs : r.silent = 0) : Conforms c (.cat .block) r.ast.nodes := by
  obtain ⟨rs, hl, -⟩ := parseFallible_ok h
  exact (accepted hc hl h he hs).1

/-- **C43**, without Luau: every accepted source has a tree that conforms to the grammar, and is spelled out by it, except
for at most one dropped last statement. -/
theorem parse_grammar (hc : c.Reachable) (hlu : c.has .luau = false) (h : parse c source = .ok (.ok ast)) :
    Conforms c (.cat .block) ast.nodes := by
  obtain ⟨r, hr, he, rfl⟩ := parse_ok_iff.1 h
  exact accepted_grammar_partial hc hr he (nothing_skipped hc hlu hr)

/-! ## C23 -/

/-- **C23** (partial).  If a source is accepted and nothing is skipped, the operators in every expression of the tree bind
as the manual says. -/
theorem accepted_precedence_partial (hc : c.Reachable) (h : parseFallible c source = .ok r) (he : r.errors = [])
    (hs : r.silent = 0) : r.ast.nodes.Every precedence :=
  Grammatical.precedence (Conforms.every _ _ (accepted_grammar_partial hc h he hs))

/-- **C23** (partial), for `parse` without Luau.  Missing: sources with syntax errors, for which it fails (below). -/
theorem parse_precedence_partial (hc : c.Reachable) (hlu : c.has .luau = false) (h : parse c source = .ok (.ok ast)) :
    ast.nodes.Every precedence := by
  obtain ⟨r, hr, he, rfl⟩ := parse_ok_iff.1 h
  exact accepted_precedence_partial hc hr he (nothing_skipped hc hlu hr)

/-- The node reached by going to the given children. -/
def descend : Node → List Nat → Node
  | n, [] => n
  | .tok t, _ => .tok t
  | .node _ cs, i :: is => descend (cs.getD i (.node .absent [])) is

theorem every_child {p : Kind → List Node → Prop} (h0 : p .absent []) {i : Nat} {cs : List Node}
    (h : Node.Every.everys p cs) : (cs.getD i (.node .absent [])).Every p := by
  induction cs generalizing i with
  | nil => simp only [List.getD_nil, Node.Every, Node.Every.everys, and_true]; exact h0
  | cons x cs ih =>
    cases i with
    | zero => exact h.1
    | succ i => exact ih h.2

theorem every_descend {p : Kind → List Node → Prop} (h0 : p .absent []) :
    ∀ (is : List Nat) (n : Node), n.Every p → (descend n is).Every p
  | [], n, h => by simpa [descend] using h
  | i :: is, .tok t, h => by simp [descend]
  | i :: is, .node k cs, h => by simpa [descend] using every_descend h0 is _ (every_child h0 h.2)

/-- With a syntax error the claim fails: the tree of `y = x * - a ^ ^ b` is `x * ((- a) ^ b)`. -/
theorem precedence_fails_with_errors :
    ∃ r, parseFallible cfg51 c!"y = x * - a ^ ^ b" = .ok r ∧ ¬ r.ast.nodes.Every precedence := by
  let bad : Node → Bool := fun
    | .node .exprBinary [l, o, _] => decide (Edge.unary ∈ operators l) && !decide (row (opText o) < unaryRow)
    | _ => false
  obtain ⟨r, h1, h2⟩ : ∃ r, parseFallible cfg51 c!"y = x * - a ^ ^ b" = .ok r ∧
    bad (descend r.ast.nodes [0, 0, 0, 0, 2, 0, 0, 2]) = true := Outcome.run (by decide +kernel)
  refine ⟨r, h1, fun h => ?_⟩
  have h := every_descend (p := precedence) trivial [0, 0, 0, 0, 2, 0, 0, 2] _ h
  revert h h2
  generalize descend r.ast.nodes _ = n
  intro h2 h
  simp only [bad] at h2
  split at h2
  · rw [Bool.and_eq_true_iff] at h2
    have h3 := h.1.2.1 (of_decide_eq_true h2.1)
    rw [decide_eq_true h3] at h2
    exact absurd h2.2 (by decide)
  · cases h2

/-! ## C35 -/

/-- **C35** (partial).  If a source is accepted and nothing is skipped, every block of the tree has the form of a block:
statements that are not last statements, and then at most one last statement.  With `accepted_tokens_partial` the
statements are in source order. -/
theorem accepted_blocks_partial (hc : c.Reachable) (h : parseFallible c source = .ok r) (he : r.errors = [])
    (hs : r.silent = 0) : r.ast.nodes.Every blockForm :=
  Grammatical.blockForm (Conforms.every _ _ (accepted_grammar_partial hc h he hs))

/-- **C35** (partial), for `parse` without Luau. -/
theorem parse_blocks_partial (hc : c.Reachable) (hlu : c.has .luau = false) (h : parse c source = .ok (.ok ast)) :
    ast.nodes.Every blockForm := by
  obtain ⟨r, hr, he, rfl⟩ := parse_ok_iff.1 h
  exact accepted_blocks_partial hc hr he (nothing_skipped hc hlu hr)

/-- The claim fails for two last statements: a second `return` follows the first one without any error. -/
theorem two_last_statements : ∃ r, parseFallible cfg51 c!"return 1 return 2" = .ok r ∧ r.errors.isEmpty = true :=
  Outcome.run (by decide +kernel)

/-! ## C40 -/

/-- **C40** (partial).  If a source without `#!` that does not end with a last statement is accepted, then so is the
printed Ast, and the result is the same Ast.  Missing: sources with `#!` or of which tokens were skipped. -/
theorem reparse_partial (hc : c.Reachable) (hlu : c.has .luau = false) (h : parse c source = .ok (.ok ast))
    (hk : ¬ HasShebang source) (hlast : ¬ HasLast ast.nodes) : parse c ast.display = .ok (.ok ast) := by
  rw [parse_lossless_partial hc hlu h hk hlast]; exact h

/-- **C40.** If the printed Ast of an accepted source is the source, parsing the printed text gives the same Ast. -/
theorem reparse_of_lossless (h : parse c source = .ok (.ok ast)) (hd : ast.display = source) :
    parse c ast.display = .ok (.ok ast) := by
  rw [hd]; exact h

end FM.Props
