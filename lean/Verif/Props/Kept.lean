import Verif.Spec.Kept
import Verif.Proofs.Parser.Kept
import Verif.Props.Complete
import Verif.Props.Saved

/-!
# Properties of accepted sources whose tokens were all kept, in every version

The theorems of Props/Accepted.lean, Props/Parsed.lean, Props/Complete.lean and Props/Saved.lean assume, with Luau, that the
parser skipped nothing, which is a ghost counter of the model.  Here they are stated in terms of the result: if the Ast of an
accepted source has all its tokens, nothing was skipped.
-/

namespace FM.Props
open FM FM.Spec FM.Parser FM.Parser.Count

variable {c : Cfg} {source : Text} {rs : List (LexRes TokRef)} {ast : Ast}

/-- If the Ast of an accepted source has all its tokens, the parser skipped nothing. -/
theorem kept_run (hc : c.Reachable) (hl : lexAll c source = .ok rs) (h : parse c source = .ok (.ok ast)) (hk : Kept rs ast) :
    ∃ r, parseFallible c source = .ok r ∧ r.errors = [] ∧ r.silent = 0 ∧ r.ast = ast := by
  obtain ⟨r, hr, he, rfl⟩ := parse_ok_iff.1 h
  exact ⟨r, hr, he, kept_silent hc hl hr he hk, rfl⟩

/-! ## C19 -/

/-- **C19, if all tokens were kept.**  If every token of an accepted source is in the Ast, then the tokens of the Ast in
printing order are exactly those of the source: none is there twice, none was moved and none was made up. -/
theorem kept_tokens (hc : c.Reachable) (hl : lexAll c source = .ok rs) (h : parse c source = .ok (.ok ast)) (hk : Kept rs ast) :
    tokensOf rs = ast.nodes.flat ++ [ast.eof] := by
  obtain ⟨r, hr, he, hs, rfl⟩ := kept_run hc hl h hk
  have hne : errorsOf rs = [] := by rw [← tokenizer_errors_reported hc hl hr, he]; rfl
  obtain ⟨d, h1, -⟩ := accepted_tokens_partial hc hl hr he hs
  have hn := tokens_nodup hc hl hne
  rw [h1] at hn
  cases d with
  | nil => simpa using h1
  | cons t d =>
    have h2 := hk t (by rw [h1]; simp)
    rw [List.mem_append, List.mem_singleton] at h2
    obtain ⟨-, h3, h4⟩ := List.nodup_append.1 hn
    rcases h2 with h2 | rfl
    · exact absurd rfl (h4 t h2 t (by simp))
    · simp at h3

/-- Otherwise a token of the source is missing in the Ast. -/
theorem kept_or_lost (hc : c.Reachable) (hl : lexAll c source = .ok rs) (h : parse c source = .ok (.ok ast)) :
    tokensOf rs = ast.nodes.flat ++ [ast.eof] ∨ ∃ t ∈ tokensOf rs, t ∉ ast.nodes.flat ++ [ast.eof] := by
  by_cases hk : Kept rs ast
  · exact .inl (kept_tokens hc hl h hk)
  · simp only [Kept] at hk
    obtain ⟨t, ht⟩ := Classical.not_forall.1 hk
    exact .inr ⟨t, Classical.not_imp.1 ht⟩

/-! ## C18, C40 -/

/-- **C18, if all tokens were kept.**  If every token of an accepted source is in the Ast, the Ast is printed as the source. -/
theorem kept_lossless (hc : c.Reachable) (hl : lexAll c source = .ok rs) (h : parse c source = .ok (.ok ast)) (hk : Kept rs ast)
    (hb : ShebangKept source rs) : ast.display = source := by
  obtain ⟨r, hr, he, hs, rfl⟩ := kept_run hc hl h hk
  exact parse_lossless_count_partial hc hl hr he hs hb (by rw [kept_tokens hc hl h hk]; simp)

/-- **C40, if all tokens were kept.**  Parsing the printed Ast gives the same Ast. -/
theorem kept_reparse (hc : c.Reachable) (hl : lexAll c source = .ok rs) (h : parse c source = .ok (.ok ast)) (hk : Kept rs ast)
    (hb : ShebangKept source rs) : parse c ast.display = .ok (.ok ast) :=
  reparse_of_lossless h (kept_lossless hc hl h hk hb)

/-! ## C43, C44, C50 -/

/-- **C43, if all tokens were kept.**  The tree conforms to the grammar of the active versions. -/
theorem kept_grammar (hc : c.Reachable) (hl : lexAll c source = .ok rs) (h : parse c source = .ok (.ok ast)) (hk : Kept rs ast) :
    Conforms c (.cat .block) ast.nodes := by
  obtain ⟨r, hr, he, hs, rfl⟩ := kept_run hc hl h hk
  exact accepted_grammar_partial hc hr he hs

/-- **C50, in terms of `parse`.**  In every version: a source is accepted with an Ast that has all its tokens if and only if it
has no tokenizer error, its tokens are those of the Ast, and the Ast is a tree of the grammar, in Luau of the reading that is
meant. -/
theorem kept_iff (hc : c.Reachable) (hl : lexAll c source = .ok rs) :
    parse c source = .ok (.ok ast) ∧ Kept rs ast ↔ errorsOf rs = [] ∧ tokensOf rs = ast.nodes.flat ++ [ast.eof] ∧
      Conforms c (.cat .block) ast.nodes ∧ (c.has .luau = true → ast.nodes.Every Chosen) := by
  constructor
  · rintro ⟨h, hk⟩
    refine ⟨parse_ok_no_tokenizer_error hc hl h, kept_tokens hc hl h hk, kept_grammar hc hl h hk, fun hlu => ?_⟩
    obtain ⟨r, hr, he, hs, rfl⟩ := kept_run hc hl h hk
    exact accepted_chosen hc hlu hr he hs
  · rintro ⟨h1, h2, h3, h4⟩
    exact ⟨chosen_accepted hc hl h1 h2 h3 h4, fun t ht => h2 ▸ ht⟩

/-- In every version, what is left out of an accepted source makes the difference: a source whose tokens are not those of a tree
of the grammar is rejected, or the Ast lacks some of its tokens. -/
theorem rejected_or_lost (hc : c.Reachable) (hl : lexAll c source = .ok rs)
    (hn : ∀ n : Node, Conforms c (.cat .block) n → ∀ e, tokensOf rs ≠ n.flat ++ [e]) (h : parse c source = .ok (.ok ast)) :
    ∃ t ∈ tokensOf rs, t ∉ ast.nodes.flat ++ [ast.eof] := by
  rcases kept_or_lost hc hl h with h1 | h1
  · exact absurd h1 (hn _ (kept_grammar hc hl h fun t ht => h1 ▸ ht) _)
  · exact h1

/-! ## C23, C35 -/

/-- **C23, if all tokens were kept.**  The operators in every expression bind as the manual says. -/
theorem kept_precedence (hc : c.Reachable) (hl : lexAll c source = .ok rs) (h : parse c source = .ok (.ok ast)) (hk : Kept rs ast) :
    ast.nodes.Every precedence := by
  obtain ⟨r, hr, he, hs, rfl⟩ := kept_run hc hl h hk
  exact accepted_precedence_partial hc hr he hs

/-- **C35, if all tokens were kept.**  Every block has statements and then at most one last statement. -/
theorem kept_blocks (hc : c.Reachable) (hl : lexAll c source = .ok rs) (h : parse c source = .ok (.ok ast)) (hk : Kept rs ast) :
    ast.nodes.Every blockForm := by
  obtain ⟨r, hr, he, hs, rfl⟩ := kept_run hc hl h hk
  exact accepted_blocks_partial hc hr he hs

/-! ## C25, C29, C31, C32, C57 -/

/-- **C25, for parsed trees whose tokens were all kept.**  The tokens obtained by iterating `tokens()` on any node are those of
the printed node, each exactly once. -/
theorem kept_iteration (hc : c.Reachable) (hl : lexAll c source = .ok rs) (h : parse c source = .ok (.ok ast)) (hk : Kept rs ast)
    {n : Node} (hn : Inside n ast.nodes) : ∃ l : List TokRef,
      answers n.items (List.replicate (l.length + 1) .front) = l.map some ++ [none] ∧ l.Perm n.flat := by
  obtain ⟨r, hr, he, hs, rfl⟩ := kept_run hc hl h hk
  exact parsed_tokens hc hr he hs hn

/-- **C29, for parsed trees whose tokens were all kept** (partial).  The default mutable visitor returns the Ast unchanged, if
Luau is active or not compiled in. -/
theorem kept_default_visitor_partial (hc : c.Reachable) (hl : lexAll c source = .ok rs) (h : parse c source = .ok (.ok ast))
    (hk : Kept rs ast) (hlu : c.feat.luau = true → c.has .luau = true) (s : Unit) :
    ast.visitMut c.feat defaultVisitor s = (ast, s) := by
  obtain ⟨r, hr, he, hs, rfl⟩ := kept_run hc hl h hk
  exact parsed_default_visitor_partial hc hr he hs hlu s

/-- **C31, for parsed trees whose tokens were all kept.**  A visitor that rewrites tokens rewrites every token of the source in
front of the end of file once. -/
theorem kept_token_visitor (hc : c.Reachable) (hl : lexAll c source = .ok rs) (h : parse c source = .ok (.ok ast))
    (hk : Kept rs ast) (g : Token → Token) (s : Unit) :
    ∃ ts, flatTokens rs = ts ++ ast.eof.flat ∧ allTokens (ast.nodes.visitMut c.feat (tokenVisitor g) s).1.flat = ts.map g := by
  refine ⟨allTokens ast.nodes.flat, by rw [flatTokens, kept_tokens hc hl h hk]; simp [allTokens], ?_⟩
  obtain ⟨r, hr, he, hs, rfl⟩ := kept_run hc hl h hk
  exact parsed_token_visitor hc hr he hs g s

/-- **C32, for parsed trees whose tokens were all kept.**  `update_positions` changes no printed token. -/
theorem kept_update_positions (hc : c.Reachable) (hl : lexAll c source = .ok rs) (h : parse c source = .ok (.ok ast))
    (hk : Kept rs ast) (hb : ShebangKept source rs) :
    (ast.updatePositions c.feat).nodes.flat = ast.nodes.flat ∧ (ast.updatePositions c.feat).eof = ast.eof := by
  obtain ⟨r, hr, he, hs, rfl⟩ := kept_run hc hl h hk
  exact parsed_update_positions hc hl hr he hs hb

/-- **C57, for parsed trees whose tokens were all kept.**  Sources whose trees are stored as the same data are equal. -/
theorem kept_same_saved (hc : c.Reachable) (hl : lexAll c source = .ok rs) (h : parse c source = .ok (.ok ast)) (hk : Kept rs ast)
    (hb : ShebangKept source rs) {source' : Text} {rs' : List (LexRes TokRef)} {ast' : Ast} (hl' : lexAll c source' = .ok rs')
    (h' : parse c source' = .ok (.ok ast')) (hk' : Kept rs' ast') (hb' : ShebangKept source' rs')
    (hsame : ast.save c.feat = ast'.save c.feat) : source = source' := by
  rw [← kept_lossless hc hl h hk hb, ← kept_lossless hc hl' h' hk' hb']
  obtain ⟨r, hr, he, hs, rfl⟩ := kept_run hc hl h hk
  obtain ⟨r', hr', he', hs', rfl⟩ := kept_run hc hl' h' hk'
  exact (same_saved_parsed hc hr he hs hr' he' hs' hsame).2.2

/-! ## Examples -/

/-- From a run to the hypotheses of the theorems. -/
theorem kept_of_run {r : AstResult} (h : parseFallible c source = .ok r) (he : r.errors.isEmpty = true)
    (ht : tokensOf rs = r.ast.nodes.flat ++ [r.ast.eof]) : parse c source = .ok (.ok r.ast) ∧ Kept rs r.ast :=
  ⟨parse_ok_iff.2 ⟨r, h, List.isEmpty_iff.1 he, rfl⟩, fun t hm => ht ▸ hm⟩

/-- A Luau source whose tokens are all kept. -/
example : ∃ rs ast, lexAll cfgLuau c!"type T<A> = {x: A?} local f: T<T<A>> = `a{b}` :: any -- c" = .ok rs ∧
    parse cfgLuau c!"type T<A> = {x: A?} local f: T<T<A>> = `a{b}` :: any -- c" = .ok (.ok ast) ∧ Kept rs ast ∧
    ShebangKept c!"type T<A> = {x: A?} local f: T<T<A>> = `a{b}` :: any -- c" rs ∧ 25 < (tokensOf rs).length := by
  obtain ⟨rs, r, h1, h2, h3, h4, h5⟩ : ∃ rs r, lexAll cfgLuau c!"type T<A> = {x: A?} local f: T<T<A>> = `a{b}` :: any -- c" = .ok rs ∧
    parseFallible cfgLuau c!"type T<A> = {x: A?} local f: T<T<A>> = `a{b}` :: any -- c" = .ok r ∧ r.errors.isEmpty = true ∧
    tokensOf rs = r.ast.nodes.flat ++ [r.ast.eof] ∧ 25 < (tokensOf rs).length := Outcome.run₂ (by decide +kernel)
  obtain ⟨h6, h7⟩ := kept_of_run h2 h3 h4
  exact ⟨rs, r.ast, h1, h6, h7, fun h => absurd h (by decide), h5⟩

/-- A Luau source of which tokens are lost. -/
example : ∃ rs ast, lexAll cfgLuau c!"f(x::)" = .ok rs ∧ parse cfgLuau c!"f(x::)" = .ok (.ok ast) ∧ ¬ Kept rs ast := by
  obtain ⟨rs, r, h1, h2, h3, h4⟩ : ∃ rs r, lexAll cfgLuau c!"f(x::)" = .ok rs ∧ parseFallible cfgLuau c!"f(x::)" = .ok r ∧
    r.errors.isEmpty = true ∧ r.ast.nodes.flat.length + 1 < (tokensOf rs).length := Outcome.run₂ (by decide +kernel)
  have h : parse cfgLuau c!"f(x::)" = .ok (.ok r.ast) := parse_ok_iff.2 ⟨r, h2, List.isEmpty_iff.1 h3, rfl⟩
  refine ⟨rs, r.ast, h1, h, fun hk => ?_⟩
  rw [kept_tokens cfgLuau_reachable h1 h hk] at h4
  simp at h4

end FM.Props
