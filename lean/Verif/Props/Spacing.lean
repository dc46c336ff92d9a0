import Verif.Proofs.RespaceLaid
import Verif.Props.Formatting
import Verif.Props.Complete
import Verif.Props.Source
import Verif.Proofs.Layout

/-!
# Properties of white space and comments between tokens: C46, C47
-/

namespace FM.Props
open FM FM.Spec FM.Parser FM.Parser.Clean FM.Parser.Forward

variable {c : Cfg} {source f s : Text} {rs : List (LexRes TokRef)} {ast : Ast}

theorem tokensOf_ok (us : List TokRef) : tokensOf (us.map .ok) = us := by
  induction us with
  | nil => rfl
  | cons u us ih => simp only [tokensOf, List.map_cons, List.filterMap_cons] at ih ⊢; rw [ih]

theorem errorsOf_ok (us : List TokRef) : errorsOf (us.map .ok) = [] := by
  induction us with
  | nil => rfl
  | cons u us ih => simp [errorsOf]

/-- Tokens that are written down are read back: up to trivia and positions, and with the interpolated strings as they were. -/
theorem written_tokens (hc : c.Reachable) {refs : List TokRef} (hf : Filler c f) (hw : Written c [] refs s) :
    ∃ us : List TokRef, lexAll c (f ++ s) = .ok (us.map .ok) ∧ us.map plain = refs.map plain ++ [plainEof] := by
  obtain ⟨fs, tys, h1, h2, h3⟩ := written_file hc.good hw hf
  obtain ⟨rs, hl, he, hs, h4⟩ := (lexical_grammar hc).2 h1
  have hok := all_ok_of_no_errors he fun es hr => failed_results_have_errors hc hl hr
  refine ⟨tokensOf rs, by rw [← hok]; exact hl, ?_⟩
  exact attach_woven h3 h2 h4 (clean_attaches hc hl he hs)

theorem shebang_append {a b : Text} (h : HasShebang a) : HasShebang (a ++ b) := by
  unfold HasShebang at *
  match a, h with
  | x :: y :: r, h => simpa using h
  | [x], h => simp at h
  | [], h => simp at h

/-- A respacing of a source writes its tokens down. -/
theorem respaced_is_written (hc : c.Reachable) (hl : lexAll c source = .ok rs) (he : errorsOf rs = []) (hs : ¬ HasShebang source)
    (hr : Respaced c (tokensOf rs) s) : ∃ ts e, tokensOf rs = ts ++ [e] ∧ e.token.type = .eof ∧ Written c [] ts s := by
  have hlex : Lexes c [] source ((flatTokens rs).map Token.type) := by
    rcases (lexical_grammar hc).1 ⟨rs, hl, he, fun h => absurd h hs, rfl⟩ with ⟨-, h⟩ | ⟨line, rest, tys, rfl, h, -⟩
    · exact h
    · exact absurd (shebang_append h) hs
  have hsort : ∀ u ∈ tokensOf rs, Sorted u := by
    intro u hu
    obtain ⟨h1, h2, h3, -⟩ := trivia_attachment hc hl hu
    exact ⟨h3, h1, h2⟩
  unfold flatTokens at hlex
  generalize tokensOf rs = us at hlex hsort hr
  have : us ≠ [] := by intro e; subst e; cases hr
  cases us with
  | nil => exact absurd rfl this
  | cons u us =>
    have e : ((u :: us).flatMap TokRef.flat).map Token.type = u.leading.map Token.type ++ (fromRef (u :: us)).map Token.type := by
      simp [fromRef, TokRef.flat]
    rw [e] at hlex
    obtain ⟨rest, -, h1, -⟩ := lexes_trivia (hsort u (.head _)).2.1 (by simp [fromRef]) hlex
    obtain ⟨ts, e, h2, h3, h4, -⟩ := respaced_written hc.good hr hsort h1
    exact ⟨ts, e, h2, h3, h4⟩

theorem respaced_plain (hc : c.Reachable) (hl : lexAll c source = .ok rs) (he : errorsOf rs = []) (hs : ¬ HasShebang source)
    (hf : Filler c f) (hr : Respaced c (tokensOf rs) s) :
    ∃ us : List TokRef, lexAll c (f ++ s) = .ok (us.map .ok) ∧ (tokensOf rs).map plain = us.map plain ∧ rs.map plainRes = (us.map .ok).map plainRes := by
  obtain ⟨ts, e, h1, h2, h3⟩ := respaced_is_written hc hl he hs hr
  obtain ⟨us, h4, h5⟩ := written_tokens hc hf h3
  have h6 : (tokensOf rs).map plain = us.map plain := by
    rw [h5, h1, List.map_append, List.map_cons, List.map_nil, plain_eof h2]
  refine ⟨us, h4, h6, ?_⟩
  rw [all_ok_of_no_errors he fun es hr => failed_results_have_errors hc hl hr]
  have := congrArg (List.map LexRes.ok) h6
  simpa [Function.comp_def, plainRes] using this

/-- **C46.**  Replacing the white space and the comments between the tokens of a source by other white space and comments
does not change the tokens: the new source has no errors either, and its tokens are the same, with the same texts. -/
theorem respaced_tokens (hc : c.Reachable) (hl : lexAll c source = .ok rs) (he : errorsOf rs = []) (hs : ¬ HasShebang source)
    (hf : Filler c f) (hr : Respaced c (tokensOf rs) s) :
    ∃ rs', lexAll c (f ++ s) = .ok rs' ∧ errorsOf rs' = [] ∧ (tokensOf rs').map (·.token.type) = (tokensOf rs).map (·.token.type) := by
  obtain ⟨us, h1, h2, -⟩ := respaced_plain hc hl he hs hf hr
  refine ⟨_, h1, errorsOf_ok us, ?_⟩
  have := congrArg (List.map (·.token.type)) h2
  rw [tokensOf_ok]
  simpa [Function.comp_def, plain] using this.symm

/-- **C46, for the parser.**  Parsing does the same with the new source, whatever it does: the trees, the errors and their
messages only differ in white space, comments and positions. -/
theorem respaced_parse (hc : c.Reachable) (hl : lexAll c source = .ok rs) (he : errorsOf rs = []) (hs : ¬ HasShebang source)
    (hf : Filler c f) (hr : Respaced c (tokensOf rs) s) :
    (parseFallible c source).bind (fun r => .ok (plainResult r)) = (parseFallible c (f ++ s)).bind (fun r => .ok (plainResult r)) := by
  obtain ⟨us, h1, -, h2⟩ := respaced_plain hc hl he hs hf hr
  exact formatting_irrelevant hl h1 h2

/-- **C46, for accepted sources.**  The new source of an accepted source is accepted, the trees are equal up to white space,
comments and positions, and `similar` finds them similar. -/
theorem respaced_accepted (hc : c.Reachable) (hl : lexAll c source = .ok rs) (hp : parse c source = .ok (.ok ast)) (hs : ¬ HasShebang source)
    (hf : Filler c f) (hr : Respaced c (tokensOf rs) s) :
    ∃ ast' : Ast, parse c (f ++ s) = .ok (.ok ast') ∧ ast'.nodes.mapTok bare = ast.nodes.mapTok bare ∧
      ast.nodes.similar ast'.nodes = true := by
  obtain ⟨us, h1, -, h2⟩ := respaced_plain hc hl (parse_ok_no_tokenizer_error hc hl hp) hs hf hr
  exact accepted_reformatted hc hl h1 h2 hp

theorem plain_of_types {us us' : List TokRef} (h : us.map (·.token.type) = us'.map (·.token.type)) (hn : ∀ t ∈ us, ∀ x k, t.token.type ≠ .interpolated x k) :
    us.map plain = us'.map plain := by
  have key : ∀ t : TokRef, (∀ x k, t.token.type ≠ .interpolated x k) → plain t = ⟨[], ⟨⟨0, 0, 0⟩, ⟨0, 0, 0⟩, t.token.type⟩, []⟩ := by
    intro t ht
    have : (t.token.type.kind == .interpolatedString) = false := by
      cases e : t.token.type <;> first | rfl | exact absurd e (ht _ _)
    simp [plain, this]
  induction us generalizing us' with
  | nil => cases us' <;> simp_all
  | cons u us ih =>
    cases us' with
    | nil => simp at h
    | cons u' us' =>
      simp only [List.map_cons, List.cons.injEq] at h ⊢
      refine ⟨?_, ih h.2 fun t ht => hn t (.tail _ ht)⟩
      rw [key u (hn u (.head _)), key u' (h.1 ▸ hn u (.head _)), h.1]

/-- A source whose tokens are, up to trivia and positions, those of a tree is read as that tree. -/
theorem plain_tokens_accepted (hc : c.Reachable) {n : Node} (hg : Conforms c (.cat .block) n) (hp : c.has .luau = true → n.Every Chosen)
    {us : List TokRef} (h1 : lexAll c source = .ok (us.map .ok)) (h2 : us.map plain = n.flat.map plain ++ [plainEof]) :
    ∃ ast : Ast, parseFallible c source = .ok ⟨ast, [], 0⟩ ∧ ast.nodes.mapTok bare = n.mapTok bare := by
  have hu : tokensOf (us.map .ok) = us := tokensOf_ok us
  have ho : ∀ t ∈ n.flat, ∀ y, t.token.type = .symbol y → Enabled c y := by
    intro t ht y hy
    have : plain t ∈ us.map plain := by rw [h2]; exact List.mem_append_left _ (List.mem_map.2 ⟨t, ht, rfl⟩)
    obtain ⟨u, hm, e⟩ := List.mem_map.1 this
    have e : u.token.type = t.token.type := congrArg (·.token.type) e
    exact symbols_enabled hc h1 (x := u.token) (List.mem_flatMap.2 ⟨u, hu.symm ▸ hm, by simp [TokRef.flat]⟩) (e.trans hy)
  have hb : Fits c .block n := fits_of hg ho hp
  obtain ⟨b, rfl, hb'⟩ := view_block hb
  have hy : b.node.flat = yield b := by rw [flat_blk]
  have hpl : us.map plain = (yield b ++ [plainEof]).map plain := by
    rw [h2, hy, List.map_append]
    rfl
  have hres : (us.map .ok).map plainRes = ((yield b ++ (yield (none : Option (Node × Option TokRef)) ++ [plainEof])).map .ok).map plainRes := by
    have := congrArg (List.map LexRes.ok) hpl
    simpa [Function.comp_def, plainRes, yield] using this
  have hsame := Format.same_parseTokens (c := c) hres
  have hd : parseTokens c (us.map .ok) ≠ .diverge := by
    have := parse_cases hc h1
    intro h
    rw [h] at this
    exact this
  have hrun := parseTokens_runs hc.1 hb' (x := none) nofun (fun _ => rfl) (fun _ _ _ h => by cases h) (t := plainEof) rfl (by
    intro h
    rw [h] at hsame
    cases hq : parseTokens c (us.map .ok) <;> rw [hq] at hsame <;>
      simp only [Format.strip_out_ok, Format.strip_out_panic, Format.strip_out_diverge, reduceCtorEq] at hsame
    exact hd hq)
  rw [hrun] at hsame
  cases hq : parseTokens c (us.map .ok) <;> rw [hq] at hsame <;>
    simp only [Format.strip_out_ok, Format.strip_out_panic, Format.strip_out_diverge, reduceCtorEq, Outcome.ok.injEq] at hsame
  rename_i r
  have h3 : r.errors.map plainErr = [] := congrArg (fun r : AstResult => r.errors) hsame
  have h4 : r.ast.nodes.mapTok plain = b.node.mapTok plain := congrArg (fun r : AstResult => r.ast.nodes) hsame
  have h5 : r.silent = 0 := congrArg (fun r : AstResult => r.silent) hsame
  refine ⟨r.ast, ?_, ?_⟩
  · have e : r = ⟨r.ast, [], 0⟩ := by
      rw [← h5, ← List.map_eq_nil_iff.1 h3]
    unfold parseFallible
    rw [h1, ← e]
    exact hq
  · rw [← bare_plain, ← mapTok_comp, ← mapTok_comp, h4]

theorem plain_tokens_parse (hc : c.Reachable) {n : Node} (hg : Conforms c (.cat .block) n) (hp : c.has .luau = true → n.Every Chosen)
    {us : List TokRef} (h1 : lexAll c source = .ok (us.map .ok)) (h2 : us.map plain = n.flat.map plain ++ [plainEof]) :
    ∃ ast : Ast, parse c source = .ok (.ok ast) ∧ ast.nodes.mapTok bare = n.mapTok bare := by
  obtain ⟨ast, h3, h4⟩ := plain_tokens_accepted hc hg hp h1 h2
  exact ⟨ast, parse_ok_iff.2 ⟨_, h3, rfl, rfl⟩, h4⟩

/-- **C47.**  A tree of the grammar, written down with white space and comments between its tokens, so that each token is
what the lexical grammar finds at its place, is read back as that tree.  The tree can be any tree, also one with
interpolated strings: it need not come from a source.  In Luau it must be the reading that is meant. -/
theorem written_tree_parses (hc : c.Reachable) {n : Node} (hg : Conforms c (.cat .block) n) (hp : c.has .luau = true → n.Every Chosen)
    (hf : Filler c f) (hw : Written c [] n.flat s) :
    ∃ ast : Ast, parse c (f ++ s) = .ok (.ok ast) ∧ ast.nodes.mapTok bare = n.mapTok bare := by
  obtain ⟨us, h1, h2⟩ := written_tokens hc hf hw
  exact plain_tokens_parse hc hg hp h1 h2

/-- **C47, token by token.**  A tree of the grammar, printed with white space and comments between its tokens (as few as
any two neighbours allow), is read back as that tree.  Here no interpolated string is in it. -/
theorem printed_tree_parses (hc : c.Reachable) {n : Node} (hg : Conforms c (.cat .block) n)
    (hp : c.has .luau = true → n.Every Chosen)
    (hf : Filler c f) (hl : Laid c (n.flat.map (·.token.type)) s) :
    ∃ ast : Ast, parse c (f ++ s) = .ok (.ok ast) ∧ ast.nodes.mapTok bare = n.mapTok bare := by
  obtain ⟨us, h1, h2⟩ := lexAll_chain (laid_chain hc hl).1 hf
  refine plain_tokens_parse hc hg hp h1 ?_
  have hin : ∀ t ∈ us, ∀ x k, t.token.type ≠ .interpolated x k := by
    intro t ht x k e1
    have : t.token.type ∈ n.flat.map (·.token.type) ++ [.eof] := by rw [← h2]; exact List.mem_map.2 ⟨t, ht, rfl⟩
    rcases List.mem_append.1 this with h | h
    · exact chain_not_interpolated (laid_chain hc hl).1 _ h x k e1
    · rw [List.mem_singleton.1 h] at e1; cases e1
  have := plain_of_types (us' := n.flat ++ [plainEof]) (by rw [h2]; simp [plainEof]) hin
  rw [this, List.map_append]
  rfl

/-- **C47, for tokens of sources.**  A token read from a source without errors is read back from its text alone. -/
theorem read_token_alone (hc : c.Reachable) (hl : lexAll c source = .ok rs) (he : errorsOf rs = []) (hs : ¬ HasShebang source)
    {t : TokRef} (ht : t ∈ tokensOf rs) (hne : t.token.type ≠ .eof) (hi : ∀ x k, t.token.type ≠ .interpolated x k) : Alone c t.token.type := by
  have hok := all_ok_of_no_errors he fun es hr => failed_results_have_errors hc hl hr
  rw [hok] at hl
  obtain ⟨_, h2⟩ := lexAll_scans hc.good hs hl
  obtain ⟨h3, rest, h4, h5⟩ := allScan_mem h2 ht hne
  have hch : Chain c [t.token.type] (t.token.type.display ++ ([] ++ [])) := .cons ⟨h3, hne, hi, h4⟩ h5 follows_nil (fun _ => nofun) .nil .nil
  simp only [List.append_nil] at hch
  obtain ⟨us, h6, h7⟩ := lexAll_chain hch .nil
  exact ⟨fun ⟨x, k, e⟩ => hi x k e, chain_noShebang hch .nil, _, h6, errorsOf_ok us, by rw [tokensOf_ok]; exact h7⟩

theorem laid_spaced {tys : List TokenType} (h : ∀ ty ∈ tys, Alone c ty) : Laid c tys (spaced tys) := by
  induction tys with
  | nil => exact .nil
  | cons ty tys ih => exact .gap (f := c!" ") (h ty (.head _)) ⟨.blank (.inl rfl) .nil, rfl⟩ (ih fun t ht => h t (.tail _ ht))

/-- **C47, with spaces.**  A tree of the grammar whose tokens were read from sources without errors (each token from any
source: the tree need not be the tree of a source) is read back when its tokens are printed with a space behind each. -/
theorem spaced_tree_parses (hc : c.Reachable) {n : Node} (hg : Conforms c (.cat .block) n)
    (hp : c.has .luau = true → n.Every Chosen) (hi : ∀ t ∈ n.flat, ¬ Interpolated t.token.type)
    (ht : ∀ t ∈ n.flat, ∃ source rs u, lexAll c source = .ok rs ∧ errorsOf rs = [] ∧ ¬ HasShebang source ∧ u ∈ tokensOf rs ∧
      u.token.type = t.token.type ∧ t.token.type ≠ .eof) :
    ∃ ast : Ast, parse c (spaced (n.flat.map (·.token.type))) = .ok (.ok ast) ∧ ast.nodes.mapTok bare = n.mapTok bare := by
  have hl : Laid c (n.flat.map (·.token.type)) (spaced (n.flat.map (·.token.type))) := by
    refine laid_spaced fun ty hm => ?_
    obtain ⟨t, hm', rfl⟩ := List.mem_map.1 hm
    obtain ⟨src, rs, u, h1, h2, h3, h4, h5, h6⟩ := ht t hm'
    rw [← h5] at h6 ⊢
    exact read_token_alone hc h1 h2 h3 h4 h6 fun x k e => hi t hm' ⟨x, k, h5 ▸ e⟩
  exact printed_tree_parses hc hg hp .nil hl

/-- A source and a respacing of it. -/
example : ∃ rs, lexAll cfg51 c!"f(1)--[[x]]return a" = .ok rs ∧ errorsOf rs = [] ∧ ¬ HasShebang c!"f(1)--[[x]]return a" ∧
    Filler cfg51 c!"--[[y]]\n" ∧ Respaced cfg51 (tokensOf rs) c!"f (1\t) return -- z\n\na" := by
  refine ⟨_, rfl, rfl, by decide, ?_, ?_⟩
  · exact .long (n := 0) (body := c!"y") (f := c!"\n") (by
      intro u v h
      rcases u with _ | ⟨a, _ | ⟨b, u⟩⟩
      · cases h
      · cases h; exact ⟨rfl, rfl⟩
      · have := congrArg List.length h
        simp [closeBracket] at this
        omega) (.blank (.inr (.inr (.inr rfl))) .nil)
  · refine .gap (by rintro ⟨_, _, h⟩; cases h) (f := c!" ") (s := c!"(1\t) return -- z\n\na") ⟨.blank (.inl rfl) .nil, rfl⟩ ?_
    refine .touching (s := c!"1\t) return -- z\n\na") rfl rfl ?_
    refine .gap (by rintro ⟨_, _, h⟩; cases h) (f := c!"\t") (s := c!") return -- z\n\na") ⟨.blank (.inr (.inl rfl)) .nil, rfl⟩ ?_
    refine .gap (by rintro ⟨_, _, h⟩; cases h) (f := c!" ") (s := c!"return -- z\n\na") ⟨.blank (.inl rfl) .nil, rfl⟩ ?_
    refine .gap (by rintro ⟨_, _, h⟩; cases h) (f := c!" -- z\n\n") (s := c!"a") ⟨.blank (.inl rfl) (.line (body := c!" z") (by decide) ?_ (.blank (.inr (.inr (.inr rfl))) .nil)), rfl⟩ ?_
    · rintro ⟨n, r, h⟩
      cases h
    · exact .last (by rintro ⟨_, _, h⟩; cases h) rfl

/-- A source with interpolated strings and a respacing of it. -/
example : ∃ rs, lexAll cfgLuau c!"f`a{ {1} }b{x}`" = .ok rs ∧ errorsOf rs = [] ∧ ¬ HasShebang c!"f`a{ {1} }b{x}`" ∧
    Respaced cfgLuau (tokensOf rs) c!"f `a{\n{ 1}\t}b{x }`" := by
  refine ⟨_, rfl, rfl, by decide, ?_⟩
  refine .gap (by rintro ⟨_, _, h⟩; cases h) (f := c!" ") (s := c!"`a{\n{ 1}\t}b{x }`") ⟨.blank (.inl rfl) .nil, rfl⟩ ?_
  refine .gap (by intro _ h; cases h) (f := c!"\n") (s := c!"{ 1}\t}b{x }`") ⟨.blank (.inr (.inr (.inr rfl))) .nil, rfl⟩ ?_
  refine .gap (by rintro ⟨_, _, h⟩; cases h) (f := c!" ") (s := c!"1}\t}b{x }`") ⟨.blank (.inl rfl) .nil, rfl⟩ ?_
  refine .touching (s := c!"}\t}b{x }`") rfl rfl ?_
  refine .gap (by rintro ⟨_, _, h⟩; cases h) (f := c!"\t") (s := c!"}b{x }`") ⟨.blank (.inr (.inl rfl)) .nil, rfl⟩ ?_
  refine .touching (s := c!"x }`") rfl rfl ?_
  refine .gap (by rintro ⟨_, _, h⟩; cases h) (f := c!" ") (s := c!"}`") ⟨.blank (.inl rfl) .nil, rfl⟩ ?_
  exact .last (fun _ => rfl) rfl

/-- A tree with an interpolated string, written down. -/
example : ∃ n : Node, Conforms cfgLuau (.cat .block) n ∧ n.Every Chosen ∧ (∃ t ∈ n.flat, Interpolated t.token.type) ∧
    Written cfgLuau [] n.flat c!"x =`a{\ty}`" := by
  have : ∃ rs r, lexAll cfgLuau c!"x=`a{ y}`" = .ok rs ∧ parseFallible cfgLuau c!"x=`a{ y}`" = .ok r ∧
      r.errors.isEmpty = true ∧ r.silent = 0 ∧ tokensOf rs = r.ast.nodes.flat ++ [r.ast.eof] ∧
      ∃ t ∈ r.ast.nodes.flat, (t.token.type.kind == .interpolatedString) = true := Outcome.run₂ (by decide +kernel)
  obtain ⟨rs, ⟨ast, es, n⟩, h1, h2, h3, h4, h5, t, h6, h7⟩ := this
  dsimp only at *
  cases List.isEmpty_iff.1 h3
  cases h4
  obtain ⟨he, g1, g2, -⟩ := (chosen_iff cfgLuau_reachable h1).1 h2
  have hr : ∃ rs, lexAll cfgLuau c!"x=`a{ y}`" = .ok rs ∧ Respaced cfgLuau (tokensOf rs) c!"x =`a{\ty}`" := by
    refine ⟨_, rfl, ?_⟩
    refine .gap (by rintro ⟨_, _, h⟩; cases h) (f := c!" ") (s := c!"=`a{\ty}`") ⟨.blank (.inl rfl) .nil, rfl⟩ ?_
    refine .touching (s := c!"`a{\ty}`") rfl rfl ?_
    refine .gap (by intro _ h; cases h) (f := c!"\t") (s := c!"y}`") ⟨.blank (.inr (.inl rfl)) .nil, rfl⟩ ?_
    refine .touching (s := c!"}`") rfl rfl ?_
    exact .last (fun _ => rfl) rfl
  obtain ⟨rs', h1', hr⟩ := hr
  have hrs : rs' = rs := Outcome.ok.inj (h1'.symm.trans h1)
  rw [hrs] at hr
  obtain ⟨ts, e, k1, k2, k3⟩ := respaced_is_written cfgLuau_reachable h1 he (by decide) hr
  have : ast.nodes.flat = ts := (List.append_inj' (h5.symm.trans k1) rfl).1
  exact ⟨ast.nodes, g1, g2 rfl, ⟨t, h6, kind_interpolated.1 h7⟩, by rw [this]; exact k3⟩

/-- A tree that meets the conditions. -/
example : ∃ n : Node, Conforms cfg51 (.cat .block) n ∧ 8 < n.flat.length ∧
    ∀ t ∈ n.flat, ∃ source rs u, lexAll cfg51 source = .ok rs ∧ errorsOf rs = [] ∧ ¬ HasShebang source ∧ u ∈ tokensOf rs ∧
      u.token.type = t.token.type ∧ t.token.type ≠ .eof := by
  have : ∃ rs r, lexAll cfg51 c!"local a=f{1}--[[x]]return a" = .ok rs ∧
      parseFallible cfg51 c!"local a=f{1}--[[x]]return a" = .ok r ∧
      r.errors.isEmpty = true ∧ tokensOf rs = r.ast.nodes.flat ++ [r.ast.eof] ∧ 8 < r.ast.nodes.flat.length ∧
      ∀ t ∈ r.ast.nodes.flat, t.token.type ≠ .eof :=
    Outcome.run₂ (by decide +kernel)
  obtain ⟨rs, r, h1, h2, h3, h4, h5, h6⟩ := this
  have h : parse cfg51 _ = .ok (.ok r.ast) := parse_ok_iff.2 ⟨r, h2, List.isEmpty_iff.1 h3, rfl⟩
  exact ⟨r.ast.nodes, parse_grammar cfg51_reachable rfl h, h5, fun t ht => ⟨_, rs, t, h1, parse_ok_no_tokenizer_error cfg51_reachable h1 h,
    by decide, by rw [h4]; exact List.mem_append_left _ ht, rfl, h6 t ht⟩⟩

/-- Tokens that may touch. -/
example : MayTouch cfg51 (.symbol .leftBracket) (.symbol .leftBrace) :=
  ⟨nofun, ⟨by decide, _, rfl, rfl, rfl⟩, fun _ => ⟨'{', by decide, by decide⟩⟩

/-- The condition on touching tokens is needed: without the space the second text is a comment. -/
theorem touching_tokens_can_merge : ∃ rs rs', lexAll cfg51 c!"a - -b" = .ok rs ∧ lexAll cfg51 c!"a --b" = .ok rs' ∧
    (tokensOf rs).length = 5 ∧ (tokensOf rs').length = 2 :=
  Outcome.run₂ (by decide +kernel)

/-- The condition on interpolated strings is needed: in this one a blank behind the first section, in front
of `}`, leaves the string open. -/
theorem interpolation_depends_on_space : ∃ rs rs', lexAll cfgLuau c!"{`\\u{`}" = .ok rs ∧ lexAll cfgLuau c!"{`\\u{` }" = .ok rs' ∧
    errorsOf rs = [] ∧ errorsOf rs' ≠ [] :=
  Outcome.run₂ (by decide +kernel)

end FM.Props
