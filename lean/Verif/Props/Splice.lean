import Verif.Proofs.Splice
import Verif.Props.Exchange
import Verif.Props.Append

/-!
# Properties of texts with exchanged blocks: C67
-/

namespace FM.Props
open FM FM.Spec FM.Parser FM.Parser.Clean FM.Parser.Forward

variable {c : Cfg} {A B : Text} {a b : Ast}

/-- Neighbours in a source divide their trivia at the end of the line. -/
theorem divided (hc : c.Reachable) {source : Text} {us : List TokRef} (h : Tokenizes c source us) :
    ∀ a x y b, us = a ++ x :: y :: b → restOfLine (x.trailing ++ y.flat) = (x.trailing, y.flat) := by
  intro a x y b e
  obtain ⟨rs, hl, he, -, ht⟩ := (tokenizes_iff hc).2 h
  have hok := all_ok_of_no_errors he fun es hr => failed_results_have_errors hc hl hr
  rw [hok, ht, e] at hl
  exact trivia_divided hc (a := a.map .ok) (b := b.map .ok) (x := .ok x) (by simpa using hl) (.inl rfl)

theorem last_type {ts : List Token} (h : ts.map Token.type = [] ∨ ∃ ty, (ts.map Token.type).getLast? = some ty ∧ EndsLine ty) :
    ts = [] ∨ ∃ x, ts.getLast? = some x ∧ EndsLine x.type := by
  rcases h with h | ⟨ty, h1, h2⟩
  · exact .inl (by simpa using h)
  · rw [List.getLast?_map] at h1
    cases hq : ts.getLast? with
    | none => rw [hq] at h1; cases h1
    | some x =>
      rw [hq] at h1
      cases h1
      exact .inr ⟨x, rfl, h2⟩

/-- The tokens of a source, some of which are exchanged for those of another one. -/
theorem tokens_spliced (hc : c.Reachable) (hsA : ¬ HasShebang A) (hsB : ¬ HasShebang B) {F X G F' Y H : List TokRef} {e f : TokRef}
    (hA : Tokenizes c A (F ++ (X ++ (G ++ [e])))) (hB : Tokenizes c B (F' ++ (Y ++ (H ++ [f])))) (hX : Above X) (hY : Above Y)
    (iX : ∀ t ∈ X, ¬ Interpolated t.token.type) (iY : ∀ t ∈ Y, ¬ Interpolated t.token.type)
    (eF : F.flatMap TokRef.display = [] ∨ (F.flatMap TokRef.display).getLast? = some '\n')
    (eY : Y.flatMap TokRef.display = [] ∨ (Y.flatMap TokRef.display).getLast? = some '\n') :
    ∃ us : List TokRef, lexAll c (F.flatMap TokRef.display ++ (Y.flatMap TokRef.display ++ (G ++ [e]).flatMap TokRef.display)) = .ok (us.map .ok) ∧
      us.map unplaced = (F ++ (Y ++ (G ++ [e]))).map unplaced := by
  obtain ⟨a1, a2, a3, a4, a5⟩ := tokenized hc hsA (F := F ++ (X ++ G)) (e := e) (by simpa using hA)
  obtain ⟨b1, b2, b3, b4, b5⟩ := tokenized hc hsB (F := F' ++ (Y ++ H)) (e := f) (by simpa using hB)
  have a3 : ∀ u ∈ F ++ (X ++ (G ++ [e])), Sorted u := by simpa using a3
  have b3 : ∀ u ∈ F' ++ (Y ++ (H ++ [f])), Sorted u := by simpa using b3
  have sX : ∀ u ∈ X, Sorted u := fun u hu => a3 u (by simp [hu])
  have sY : ∀ u ∈ Y, Sorted u := fun u hu => b3 u (by simp [hu])
  have dG : (G ++ [e]).flatMap TokRef.display = textOf ((G.flatMap TokRef.flat).map Token.type ++ e.leading.map Token.type) := by
    rw [display_types]
    simp [textOf, TokRef.flat, a1, a2, TokenType.display]
  rw [display_types] at eF eY
  obtain ⟨-, h2, h3, h4⟩ := lexes_spliced hc.good (tF := (F.flatMap TokRef.flat).map Token.type) (tX := (X.flatMap TokRef.flat).map Token.type)
    (tG := (G.flatMap TokRef.flat).map Token.type ++ e.leading.map Token.type) (tF' := (F'.flatMap TokRef.flat).map Token.type)
    (tY := (Y.flatMap TokRef.flat).map Token.type) (tH := (H.flatMap TokRef.flat).map Token.type ++ f.leading.map Token.type ++ [.eof])
    (by simpa using a5) (by simpa using b5) (by simp)
    (fun _ bs bs' h base => by rw [runTypes_refs sX] at h ⊢; exact hX.same iX h base)
    (fun _ bs bs' h base => by rw [runTypes_refs sY] at h ⊢; exact hY.same iY h base) eF eY
  rw [dG, display_types F, display_types Y]
  obtain ⟨rs, hl, he, hk, hty⟩ := (lexical_grammar hc).2 (.inl ⟨lexes_noShebang hc.good h2, h2⟩)
  have hok := all_ok_of_no_errors he fun es hr => failed_results_have_errors hc hl hr
  refine ⟨tokensOf rs, by rw [hl, ← hok], ?_⟩
  have hatt := attaches_spliced (G := G ++ [e]) (H := H ++ [f]) (by simp) (by simp) (divided hc hA) a3 (divided hc hB) b3
    (by intro u hu; simp at hu; subst hu; exact a2) (last_type h3) (last_type h4)
  refine attaches_unplaced hatt (clean_attaches hc hl he hk) ?_
  rw [hty]
  simp [TokRef.flat, a1, a2]

theorem above_conforms {n : Node} (h : Conforms c (.cat .block) n) : Above n.flat :=
  above_tree (c := c) (R₀ := fun _ => True) _ (.inl ⟨_, h, fun _ => rfl⟩) ⟨_, conf_hasTy _ _ h⟩ (Grammatical.annotationsFit (Conforms.every _ _ h))

theorem exchanged_within {x y n n' : Node} (h : Exchanged x y n n') : Within x n := by
  induction h with
  | here => exact .self
  | inside _ ih => exact .child (by simp) ih

/-- **C67.**  The text of a block of an accepted program can be exchanged for the text of any block of another accepted program, with all white
space and comments: the result is accepted, and it is read as the tree with the block exchanged, each token with the trivia it had.
There have to be line breaks in front of the block and at the end of the new one (unless there is nothing), and no interpolated strings in them. -/
theorem block_text_exchanged (hc : c.Reachable) (hsA : ¬ HasShebang A) (hsB : ¬ HasShebang B)
    (hA : parseFallible c A = .ok ⟨a, [], 0⟩) (hB : parseFallible c B = .ok ⟨b, [], 0⟩) (hall : Tokenizes c A (a.nodes.flat ++ [a.eof])) {x y n : Node}
    (hx : kindOf x = some .block) (hy : kindOf y = some .block) (hw : Within y b.nodes) (h : Exchanged x y a.nodes n)
    (iX : ∀ t ∈ x.flat, ¬ Interpolated t.token.type) (iY : ∀ t ∈ y.flat, ¬ Interpolated t.token.type)
    (eY : y.display = [] ∨ y.display.getLast? = some '\n') :
    ∃ (F G : List TokRef) (P R : Text), a.nodes.flat = F ++ (x.flat ++ G) ∧ n.flat = F ++ (y.flat ++ G) ∧
      P = F.flatMap TokRef.display ∧ R = (G ++ [a.eof]).flatMap TokRef.display ∧ A = P ++ (x.display ++ R) ∧
      (P = [] ∨ P.getLast? = some '\n' → ∃ ab : Ast, parseFallible c (P ++ (y.display ++ R)) = .ok ⟨ab, [], 0⟩ ∧
        ab.nodes.mapTok bare = n.mapTok bare ∧ (ab.nodes.flat ++ [ab.eof]).map unplaced = (n.flat ++ [a.eof]).map unplaced) := by
  obtain ⟨h1, h2, h3⟩ := exchanged_conforms hc hsA hsB hA hB hx hy hw h
  obtain ⟨a1, a2, -⟩ := (source_accepted_iff hc hsA).1 hA
  obtain ⟨b1, b2, dropped, b3, -⟩ := (source_accepted_iff hc hsB).1 hB
  have fitA := Grammatical.annotationsFit (Conforms.every _ _ a1)
  obtain ⟨⟨F, G, f1, f2⟩, -⟩ := h.splice (R₀ := fun _ => True) hx ⟨_, conf_hasTy _ _ a1⟩ fitA
  have hT : Tokenizes c A (F ++ (x.flat ++ (G ++ [a.eof]))) := by
    have := hall
    rw [f1] at this
    simpa using this
  obtain ⟨e1, e2, -⟩ := tokenized hc hsA hall
  refine ⟨F, G, _, _, f1, f2, rfl, rfl, ?_, fun eF => ?_⟩
  · obtain ⟨rs, hl, he, hk, ht⟩ := (tokenizes_iff hc).2 hT
    have := tokenize_lossless hc hl he hk
    rw [ht] at this
    rw [← this]
    simp [Node.display]
  · obtain ⟨xs, rfl⟩ := kindOf_block hx
    obtain ⟨ys, rfl⟩ := kindOf_block hy
    have x1 : Conforms c (.cat .block) (.node .block xs) := conforms_within (exchanged_within h) (.inl ⟨_, a1, nofun⟩) rfl rfl
    have fitB := Grammatical.annotationsFit (Conforms.every _ _ b1)
    obtain ⟨F', H, hF⟩ := flat_infix (R₀ := fun _ => True) ⟨_, _, rfl, by decide⟩ b.nodes ⟨_, conf_hasTy _ _ b1⟩ fitB hw
    have hTB : Tokenizes c B (F' ++ ((Node.node .block ys).flat ++ ((H ++ dropped) ++ [b.eof]))) := by
      have := b3
      rw [← hF] at this
      simpa using this
    obtain ⟨us, g1, g2⟩ := tokens_spliced hc hsA hsB hT hTB (above_conforms x1) (above_conforms h2) iX iY eF eY
    have hplain : us.map plain = n.flat.map plain ++ [plainEof] := by
      have := congrArg (List.map plain) g2
      simp only [List.map_map, Function.comp_def, plain_unplaced] at this
      rw [show us.map plain = us.map fun x => plain x from rfl, this, f2]
      have hpe : plain a.eof = plainEof := by
        simp [plain, plainEof, e1]
        nofun
      simp [hpe]
    obtain ⟨ab, h5, h6⟩ := plain_tokens_accepted hc h1 h3 g1 hplain
    refine ⟨ab, h5, h6, ?_⟩
    obtain ⟨-, -, -, dropped', h7, -⟩ := (chosen_iff hc g1).1 h5
    rw [tokensOf_ok] at h7
    have hlen : us.length = ab.nodes.flat.length + 1 := by
      have e1 := congrArg (fun n : Node => n.flat.length) h6
      simp only [flat_mapTok, List.length_map] at e1
      have e2 := congrArg List.length hplain
      simp only [List.length_map, List.length_append, List.length_cons, List.length_nil] at e2
      omega
    have hd : dropped' = [] := by
      have := congrArg List.length h7
      simp only [List.length_append, List.length_cons, List.length_nil] at this
      exact List.length_eq_zero_iff.1 (by omega)
    subst hd
    rw [List.nil_append] at h7
    rw [← h7, g2, f2]
    simp

/-! Instances. -/

/-- Wherever the text `t` stands in `A`, a line starts. -/
def behindLines (A t : Text) : Bool :=
  (List.range (A.length + 1)).all fun k => !(t.isPrefixOf (A.drop k)) || k == 0 || (A.take k).getLast? == some '\n'

theorem behindLines_sound {t P R : Text} (h : behindLines A t = true) (e : A = P ++ (t ++ R)) : P = [] ∨ P.getLast? = some '\n' := by
  have := List.all_eq_true.1 h P.length (by simp [e]; omega)
  rw [e] at this
  simp only [List.drop_left, List.take_left, Bool.or_eq_true, Bool.not_eq_true', beq_iff_eq, List.length_eq_zero_iff] at this
  rcases this with (h | h) | h
  · rw [← Bool.not_eq_true, List.isPrefixOf_iff_prefix] at h
    exact absurd (List.prefix_append t R) h
  · exact .inl h
  · exact .inr h

/-- The first text with the first block of the text `t` exchanged for a block of the text `t'` of the second one. -/
theorem spliced_parses {t t' s : Text} (hc : c.Reachable) (hsA : ¬ HasShebang A) (hsB : ¬ HasShebang B)
    (h : ∃ r r', parseFallible c A = .ok r ∧ parseFallible c B = .ok r' ∧ (r.errors.isEmpty = true ∧ r.silent = 0) ∧ (r'.errors.isEmpty = true ∧ r'.silent = 0) ∧
      r.ast.nodes.flat.length + 1 = (match lexAll c A with | .ok rs => (tokensOf rs).length | _ => 0) ∧
      (r.ast.nodes.flat ++ r'.ast.nodes.flat).all (fun u => u.token.type.kind != .interpolatedString) = true ∧
      (swapped .block .block t t' r.ast.nodes r'.ast.nodes).any (fun n => n.flat.flatMap TokRef.display ++ r.ast.eof.display == s) = true)
    (ht' : t' = [] ∨ t'.getLast? = some '\n') (hone : behindLines A t = true) :
    ∃ ast : Ast, parse c s = .ok (.ok ast) := by
  obtain ⟨⟨a, es, i⟩, ⟨b, es', j⟩, h1, h2, ⟨h3, h4⟩, ⟨h5, h6⟩, hlen, hint, h7⟩ := h
  have hall := lexAll_tokenizes hc hsA h1 ⟨h3, h4⟩ hlen
  obtain rfl : es = [] := by simpa using h3
  obtain rfl : i = 0 := h4
  obtain rfl : es' = [] := by simpa using h5
  obtain rfl : j = 0 := h6
  obtain ⟨n, h8, h9⟩ := any_some h7
  rw [beq_iff_eq] at h9
  rw [List.all_eq_true] at hint
  dsimp only at h8 h9 hint
  unfold swapped at h8
  split at h8
  · cases h8
  · rename_i y ys e
    have hy := List.mem_filter.1 (show y ∈ (partsOf b.nodes).filter _ by rw [e]; exact .head _)
    simp only [Bool.and_eq_true, beq_iff_eq] at hy
    have hwy := within_partsOf _ hy.1
    obtain ⟨x, h10, hxt, h11⟩ := swap_exchanged h8
    obtain ⟨a1, -⟩ := (source_accepted_iff hc hsA).1 h1
    obtain ⟨b1, -⟩ := (source_accepted_iff hc hsB).1 h2
    have hno : ∀ {m n' : Node} {t : TokRef}, Conforms c (.cat .block) n' → Within m n' → kindOf m = some .block → t ∈ m.flat → t ∈ n'.flat := by
      intro m n' t hn hm hk ht
      obtain ⟨ms, rfl⟩ := kindOf_block hk
      obtain ⟨F, G, e⟩ := flat_infix (R₀ := fun _ => True) ⟨_, _, rfl, by decide⟩ n' ⟨_, conf_hasTy _ _ hn⟩ (Grammatical.annotationsFit (Conforms.every _ _ hn)) hm
      rw [← e]
      exact List.mem_append_left _ (List.mem_append_right _ ht)
    have hni : ∀ u ∈ a.nodes.flat ++ b.nodes.flat, ¬ Interpolated u.token.type := by
      rintro u hu ⟨x, k, e⟩
      have := hint u hu
      rw [e] at this
      cases this
    obtain ⟨F, G, P, R, f1, f2, f3, f4, f5, f6⟩ := block_text_exchanged hc hsA hsB h1 h2 hall h10 hy.2.1 hwy h11
      (fun u hu => hni u (List.mem_append_left _ (hno a1 (exchanged_within h11) h10 hu)))
      (fun u hu => hni u (List.mem_append_right _ (hno b1 hwy hy.2.1 hu))) (by rw [hy.2.2]; exact ht')
    obtain ⟨ab, g1, -⟩ := f6 (behindLines_sound hone (hxt ▸ f5))
    have : P ++ (y.display ++ R) = s := by
      rw [← h9, f2, f3, f4]
      simp [Node.display]
    rw [this] at g1
    exact ⟨ab, parse_ok_iff.2 ⟨_, g1, rfl, rfl⟩⟩

/-- The body of a loop, with its comments, for the body of another one. -/
example : ∃ ast : Ast, parse cfg51 c!"while x do -- a\n  return i -- d\nend -- e" = .ok (.ok ast) :=
  spliced_parses (A := c!"while x do -- a\n  -- b\n  f()\nend -- e") (B := c!"for i = 1, 2 do -- c\n  return i -- d\nend") (t := c!"  -- b\n  f()\n")
    (t' := c!"  return i -- d\n") cfg51_reachable (by decide) (by decide) (Outcome.run₂ (by decide +kernel)) (by decide) (by decide)

/-- Luau: a block inside a type. -/
example : ∃ ast : Ast, parse cfgLuauOnly c!"local x: typeof(function()\n  local t: {T} = x :: T\nend)? = {y}" = .ok (.ok ast) :=
  spliced_parses (A := c!"local x: typeof(function()\n  f()\nend)? = {y}") (B := c!"if x then\n  local t: {T} = x :: T\nend") (t := c!"  f()\n")
    (t' := c!"  local t: {T} = x :: T\n") cfgLuauOnly_reachable (by decide) (by decide) (Outcome.run₂ (by decide +kernel)) (by decide) (by decide)

/-- Nothing for something. -/
example : ∃ ast : Ast, parse cfg51 c!"repeat\nuntil x" = .ok (.ok ast) :=
  spliced_parses (A := c!"repeat\n  f()\nuntil x") (B := c!"") (t := c!"  f()\n")
    (t' := c!"") cfg51_reachable (by decide) (by decide) (Outcome.run₂ (by decide +kernel)) (by decide) (by decide)

/-- The line break in front of the block is needed: `f()` in `then(f)()end`. -/
theorem line_before_needed : ∃ r r', parseFallible cfg51 c!"if(x)then(f)()end" = .ok r ∧ parseFallible cfg51 c!"g()\n" = .ok r' ∧
    (r.errors.isEmpty = true ∧ r.silent = 0) ∧ (r'.errors.isEmpty = true ∧ r'.silent = 0) ∧
    ∃ n, swapped .block .block c!"(f)()" c!"g()\n" r.ast.nodes r'.ast.nodes = some n ∧ n.display = c!"if(x)theng()\nend" ∧
      ∃ r, parseFallible cfg51 c!"if(x)theng()\nend" = .ok r ∧ r.errors.isEmpty = false := by
  obtain ⟨r₁, h1, h2⟩ : ∃ r, parseFallible cfg51 c!"if(x)theng()\nend" = .ok r ∧ r.errors.isEmpty = false := Outcome.run (by decide +kernel)
  obtain ⟨r, r', h4, h5, h6, h7, h8⟩ : ∃ r r', parseFallible cfg51 c!"if(x)then(f)()end" = .ok r ∧ parseFallible cfg51 c!"g()\n" = .ok r' ∧
      (r.errors.isEmpty = true ∧ r.silent = 0) ∧ (r'.errors.isEmpty = true ∧ r'.silent = 0) ∧
      (swapped .block .block c!"(f)()" c!"g()\n" r.ast.nodes r'.ast.nodes).any (fun n => n.display == c!"if(x)theng()\nend") = true := Outcome.run₂ (by decide +kernel)
  obtain ⟨n, h9, h10⟩ := any_some h8
  exact ⟨r, r', h4, h5, h6, h7, n, h9, beq_iff_eq.1 h10, r₁, h1, h2⟩

/-- So is the one at the end of the new block. -/
theorem line_behind_needed : ∃ r r', parseFallible cfg51 c!"do\nf()\nend" = .ok r ∧ parseFallible cfg51 c!"return x" = .ok r' ∧
    (r.errors.isEmpty = true ∧ r.silent = 0) ∧ (r'.errors.isEmpty = true ∧ r'.silent = 0) ∧
    ∃ n, swapped .block .block c!"f()\n" c!"return x" r.ast.nodes r'.ast.nodes = some n ∧ n.display = c!"do\nreturn xend" ∧
      ∃ r, parseFallible cfg51 c!"do\nreturn xend" = .ok r ∧ r.errors.isEmpty = false := by
  obtain ⟨r₁, h1, h2⟩ : ∃ r, parseFallible cfg51 c!"do\nreturn xend" = .ok r ∧ r.errors.isEmpty = false := Outcome.run (by decide +kernel)
  obtain ⟨r, r', h4, h5, h6, h7, h8⟩ : ∃ r r', parseFallible cfg51 c!"do\nf()\nend" = .ok r ∧ parseFallible cfg51 c!"return x" = .ok r' ∧
      (r.errors.isEmpty = true ∧ r.silent = 0) ∧ (r'.errors.isEmpty = true ∧ r'.silent = 0) ∧
      (swapped .block .block c!"f()\n" c!"return x" r.ast.nodes r'.ast.nodes).any (fun n => n.display == c!"do\nreturn xend") = true := Outcome.run₂ (by decide +kernel)
  obtain ⟨n, h9, h10⟩ := any_some h8
  exact ⟨r, r', h4, h5, h6, h7, n, h9, beq_iff_eq.1 h10, r₁, h1, h2⟩

/-- So is the condition on interpolated strings: the tokenizer takes the string in this block for one that is still open (C63), so that it reads
the `}` behind the block as a part of that string. -/
theorem open_string_behind : ∃ r r', parseFallible cfgLuauOnly c!"t = { function()\nend }" = .ok r ∧ parseFallible cfgLuauOnly c!"x = `a{x`b{y}`\n" = .ok r' ∧
    (r.errors.isEmpty = true ∧ r.silent = 0) ∧ (r'.errors.isEmpty = true ∧ r'.silent = 0) ∧
    ∃ n, swapped .block .block c!"" c!"x = `a{x`b{y}`\n" r.ast.nodes r'.ast.nodes = some n ∧ n.display = c!"t = { function()\nx = `a{x`b{y}`\nend }" ∧
      ∃ r, parseFallible cfgLuauOnly c!"t = { function()\nx = `a{x`b{y}`\nend }" = .ok r ∧ r.errors.isEmpty = false := by
  obtain ⟨r₁, h1, h2⟩ : ∃ r, parseFallible cfgLuauOnly c!"t = { function()\nx = `a{x`b{y}`\nend }" = .ok r ∧ r.errors.isEmpty = false := Outcome.run (by decide +kernel)
  obtain ⟨r, r', h4, h5, h6, h7, h8⟩ : ∃ r r', parseFallible cfgLuauOnly c!"t = { function()\nend }" = .ok r ∧ parseFallible cfgLuauOnly c!"x = `a{x`b{y}`\n" = .ok r' ∧
      (r.errors.isEmpty = true ∧ r.silent = 0) ∧ (r'.errors.isEmpty = true ∧ r'.silent = 0) ∧
      (swapped .block .block c!"" c!"x = `a{x`b{y}`\n" r.ast.nodes r'.ast.nodes).any (fun n => n.display == c!"t = { function()\nx = `a{x`b{y}`\nend }") = true :=
    Outcome.run₂ (by decide +kernel)
  obtain ⟨n, h9, h10⟩ := any_some h8
  exact ⟨r, r', h4, h5, h6, h7, n, h9, beq_iff_eq.1 h10, r₁, h1, h2⟩

end FM.Props
