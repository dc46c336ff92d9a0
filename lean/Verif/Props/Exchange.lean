import Verif.Spec.Exchange
import Verif.Proofs.Exchange
import Verif.Props.Within

/-!
# Properties of programs with exchanged blocks: C66
-/

namespace FM.Props
open FM FM.Spec FM.Parser FM.Parser.Clean FM.Parser.Forward

variable {c : Cfg} {A B : Text} {a b : Ast}

/-- A tree with exchanged blocks conforms to the grammar, with the reading that is meant. -/
theorem exchanged_conforms (hc : c.Reachable) (hsA : ¬ HasShebang A) (hsB : ¬ HasShebang B)
    (hA : parseFallible c A = .ok ⟨a, [], 0⟩) (hB : parseFallible c B = .ok ⟨b, [], 0⟩) {x y n : Node}
    (hx : kindOf x = some .block) (hy : kindOf y = some .block) (hw : Within y b.nodes) (h : Exchanged x y a.nodes n) :
    Conforms c (.cat .block) n ∧ Conforms c (.cat .block) y ∧ (c.has .luau = true → n.Every Chosen) := by
  obtain ⟨a1, a2, -⟩ := (source_accepted_iff hc hsA).1 hA
  obtain ⟨b1, b2, -⟩ := (source_accepted_iff hc hsB).1 hB
  obtain ⟨cs, rfl⟩ := kindOf_block hy
  have h1 : Conforms c (.cat .block) (.node .block cs) := conforms_within hw (.inl ⟨_, b1, nofun⟩) rfl rfl
  have h2 := (h.conforms hx h1).1 _ a1
  exact ⟨h2, h1, fun e => h.chosen hx h1 (every_within hw (b2 e)) (Conforms.every _ _ a1) (Conforms.every _ _ h2) (a2 e)⟩

/-- **C66.**  Blocks of accepted programs can be exchanged: take any block of an accepted program (the body of a function, a loop or a branch, or the
whole of it), and put any block of another accepted program in its place.  Every text that writes the tokens of the resulting tree, with
any white space and comments around them, is accepted and read as that tree. -/
theorem blocks_can_be_exchanged (hc : c.Reachable) (hsA : ¬ HasShebang A) (hsB : ¬ HasShebang B)
    (hA : parseFallible c A = .ok ⟨a, [], 0⟩) (hB : parseFallible c B = .ok ⟨b, [], 0⟩) {x y n : Node}
    (hx : kindOf x = some .block) (hy : kindOf y = some .block) (hw : Within y b.nodes) (h : Exchanged x y a.nodes n)
    {f s : Text} (hf : Filler c f) (hs : Written c [] n.flat s) :
    ∃ ast : Ast, parse c (f ++ s) = .ok (.ok ast) ∧ ast.nodes.mapTok bare = n.mapTok bare := by
  obtain ⟨h1, -, h2⟩ := exchanged_conforms hc hsA hsB hA hB hx hy hw h
  exact written_tree_parses hc h1 h2 hf hs

theorem exchanged_tokens {x y n n' : Node} (h : Exchanged x y n n') {t : TokRef} (ht : t ∈ n'.tokens) : t ∈ n.tokens ∨ t ∈ y.tokens := by
  induction h with
  | here => exact .inr ht
  | @inside k before after m m' _ ih =>
    rw [Node.tokens_node] at ht ⊢
    replace ht := List.mem_flatMap.1 ht
    obtain ⟨z, hz, ht⟩ := ht
    rcases List.mem_append.1 hz with hz | hz
    · exact .inl (List.mem_flatMap.2 ⟨z, by simp [hz], ht⟩)
    · rcases List.mem_cons.1 hz with rfl | hz
      · exact (ih ht).imp (fun h => List.mem_flatMap.2 ⟨m, by simp, h⟩) id
      · exact .inl (List.mem_flatMap.2 ⟨z, by simp [hz], ht⟩)

theorem tokens_within {m n : Node} (h : Within m n) {t : TokRef} (ht : t ∈ m.tokens) : t ∈ n.tokens := by
  induction h with
  | self => exact ht
  | child hx _ ih => rw [Node.tokens_node]; exact List.mem_flatMap.2 ⟨_, hx, ih⟩

/-- A token of an accepted program is read from its source. -/
theorem token_read (hc : c.Reachable) (hsA : ¬ HasShebang A) (hA : parseFallible c A = .ok ⟨a, [], 0⟩) {t : TokRef} (ht : t ∈ a.nodes.tokens) :
    ∃ source rs u, lexAll c source = .ok rs ∧ errorsOf rs = [] ∧ ¬ HasShebang source ∧ u ∈ tokensOf rs ∧ u.token.type = t.token.type ∧ t.token.type ≠ .eof := by
  obtain ⟨rs, hl, -⟩ := parseFallible_ok hA
  obtain ⟨he, h1, -, dropped, h3, -⟩ := (chosen_iff hc hl).1 hA
  have hf := conf_mem_flat h1 ht
  refine ⟨A, rs, t, hl, he, hsA, by rw [h3]; simp [hf], rfl, ?_⟩
  obtain ⟨init, e, h4, -, -, h5, -⟩ := eof_once_last hc hl (shebangKept_of_no_shebang hsA rs)
  rw [h3, ← List.append_assoc] at h4
  obtain ⟨rfl, -⟩ := List.append_inj' h4 rfl
  exact h5 t (by simp [hf])

/-- **C66, with text.**  If there are no interpolated strings in the resulting tree, the tokens of it with a space behind each are such a text. -/
theorem exchanged_blocks_parse (hc : c.Reachable) (hsA : ¬ HasShebang A) (hsB : ¬ HasShebang B)
    (hA : parseFallible c A = .ok ⟨a, [], 0⟩) (hB : parseFallible c B = .ok ⟨b, [], 0⟩) {x y n : Node}
    (hx : kindOf x = some .block) (hy : kindOf y = some .block) (hw : Within y b.nodes) (h : Exchanged x y a.nodes n)
    (hi : ∀ t ∈ n.flat, ¬ Interpolated t.token.type) :
    ∃ ast : Ast, parse c (spaced (n.flat.map (·.token.type))) = .ok (.ok ast) ∧ ast.nodes.mapTok bare = n.mapTok bare := by
  obtain ⟨h1, -, h2⟩ := exchanged_conforms hc hsA hsB hA hB hx hy hw h
  refine spaced_tree_parses hc h1 h2 hi fun t ht => ?_
  rcases exchanged_tokens h (mem_flat (R₀ := fun _ => True) t n ⟨_, conf_hasTy _ _ h1⟩ ht) with ht | ht
  · exact token_read hc hsA hA ht
  · exact token_read hc hsB hB (tokens_within hw ht)

/-! Instances. -/

/-- A tree with the first part of the kind and the text exchanged. -/
def swap (kind : Kind) (text : Text) (y : Node) : Node → Option Node
  | .tok _ => none
  | .node k cs => if k = kind ∧ (Node.node k cs).display = text then some y else (swaps cs).map (.node k)
where
  swaps : List Node → Option (List Node)
    | [] => none
    | m :: ms => match swap kind text y m with
      | some m' => some (m' :: ms)
      | none => (swaps ms).map (m :: ·)

mutual
theorem swap_exchanged {kind : Kind} {text : Text} {y : Node} : ∀ {n n' : Node}, swap kind text y n = some n' →
    ∃ x, kindOf x = some kind ∧ x.display = text ∧ Exchanged x y n n'
  | .tok t, _, h => by simp [swap] at h
  | .node k cs, n', h => by
    rw [swap] at h
    split at h
    · rename_i e; cases h; exact ⟨_, by rw [e.1]; rfl, e.2, .here⟩
    · obtain ⟨ms, h1, rfl⟩ := Option.map_eq_some_iff.1 h
      obtain ⟨x, before, m, m', after, h2, h3, rfl, rfl, h4⟩ := swaps_exchanged h1
      exact ⟨x, h2, h3, .inside h4⟩
theorem swaps_exchanged {kind : Kind} {text : Text} {y : Node} : ∀ {cs cs' : List Node}, swap.swaps kind text y cs = some cs' →
    ∃ x before m m' after, kindOf x = some kind ∧ x.display = text ∧ cs = before ++ m :: after ∧ cs' = before ++ m' :: after ∧ Exchanged x y m m'
  | [], _, h => by simp [swap.swaps] at h
  | m :: ms, cs', h => by
    rw [swap.swaps] at h
    split at h
    · rename_i m' e
      cases h
      obtain ⟨x, h1, h2, h3⟩ := swap_exchanged e
      exact ⟨x, [], m, m', ms, h1, h2, rfl, rfl, h3⟩
    · obtain ⟨ms', h1, rfl⟩ := Option.map_eq_some_iff.1 h
      obtain ⟨x, before, m₁, m', after, h2, h3, rfl, rfl, h4⟩ := swaps_exchanged h1
      exact ⟨x, m :: before, m₁, m', after, h2, h3, rfl, rfl, h4⟩
end

/-- The first tree with its part of the text `t` exchanged for the part of the text `t'` of the second one. -/
def swapped (k k' : Kind) (t t' : Text) (n m : Node) : Option Node :=
  match (partsOf m).filter fun y => kindOf y == some k' && y.display == t' with
  | [] => none
  | y :: _ => swap k t y n

theorem any_some {α : Type} {p : α → Bool} : ∀ {o : Option α}, o.any p = true → ∃ x, o = some x ∧ p x = true
  | some x, h => ⟨x, rfl, h⟩
  | none, h => by cases h

/-- The text is accepted although nothing is evaluated here but the two programs. -/
theorem swapped_parses {t t' s : Text} (hc : c.Reachable) (hsA : ¬ HasShebang A) (hsB : ¬ HasShebang B)
    (h : ∃ r r', parseFallible c A = .ok r ∧ parseFallible c B = .ok r' ∧ (r.errors.isEmpty = true ∧ r.silent = 0) ∧ (r'.errors.isEmpty = true ∧ r'.silent = 0) ∧
      (swapped .block .block t t' r.ast.nodes r'.ast.nodes).any (fun n => n.flat.all (fun u => u.token.type.kind != .interpolatedString) &&
        spaced (n.flat.map (·.token.type)) == s) = true) : ∃ ast : Ast, parse c s = .ok (.ok ast) := by
  obtain ⟨⟨a, es, i⟩, ⟨b, es', j⟩, h1, h2, ⟨h3, h4⟩, ⟨h5, h6⟩, h7⟩ := h
  obtain rfl : es = [] := by simpa using h3
  obtain rfl : i = 0 := h4
  obtain rfl : es' = [] := by simpa using h5
  obtain rfl : j = 0 := h6
  obtain ⟨n, h8, h9⟩ := any_some h7
  rw [Bool.and_eq_true, List.all_eq_true, beq_iff_eq] at h9
  dsimp only at h8 h9
  unfold swapped at h8
  split at h8
  · cases h8
  · rename_i y ys e
    have hy := List.mem_filter.1 (show y ∈ (partsOf b.nodes).filter _ by rw [e]; exact .head _)
    simp only [Bool.and_eq_true, beq_iff_eq] at hy
    obtain ⟨x, h10, -, h11⟩ := swap_exchanged h8
    obtain ⟨ast, h12, -⟩ := exchanged_blocks_parse hc hsA hsB h1 h2 h10 hy.2.1 (within_partsOf _ hy.1) h11 (by
      rintro u hu ⟨x, k, e⟩
      have := h9.1 u hu
      rw [e] at this
      cases this)
    exact ⟨ast, h9.2 ▸ h12⟩

/-- The body of a loop for the body of another one. -/
example : ∃ ast : Ast, parse cfg51 c!"while x do return i end " = .ok (.ok ast) :=
  swapped_parses (A := c!"while x do f() end") (B := c!"for i = 1, 2 do return i end") (t := c!"f() ") (t' := c!"return i ") cfg51_reachable (by decide) (by decide)
    (Outcome.run₂ (by decide +kernel))

/-- Luau: the body of a function inside a type. -/
example : ∃ ast : Ast, parse cfgLuauOnly c!"local x : typeof ( function ( ) local t : T = x :: T end ) ? = y " = .ok (.ok ast) :=
  swapped_parses (A := c!"local x: typeof(function() f() end)? = y") (B := c!"if x then local t: T = x :: T end") (t := c!"f() ") (t' := c!"local t: T = x :: T ")
    cfgLuauOnly_reachable (by decide) (by decide) (Outcome.run₂ (by decide +kernel))

/-- It is different with expressions: `x` in `x * y` exchanged for `a + b` is read as another tree. -/
theorem expressions_cannot_be_exchanged : ∃ r r', parseFallible cfg51 c!"return x * y" = .ok r ∧ parseFallible cfg51 c!"return a + b" = .ok r' ∧
    (r.errors.isEmpty = true ∧ r.silent = 0) ∧ (r'.errors.isEmpty = true ∧ r'.silent = 0) ∧
    ∃ n, swapped .exprVar .exprBinary c!"x " c!"a + b" r.ast.nodes r'.ast.nodes = some n ∧
      spaced (n.flat.map (·.token.type)) = c!"return a + b * y " ∧ textsOf .exprBinary n = [c!"a + b* y", c!"a + b"] ∧
      ∃ r, parseFallible cfg51 c!"return a + b * y " = .ok r ∧ (r.errors.isEmpty = true ∧ r.silent = 0) ∧ textsOf .exprBinary r.ast.nodes = [c!"a + b * y ", c!"b * y "] := by
  obtain ⟨r₁, h1, h2, h3⟩ : ∃ r, parseFallible cfg51 c!"return a + b * y " = .ok r ∧ (r.errors.isEmpty = true ∧ r.silent = 0) ∧
      textsOf .exprBinary r.ast.nodes = [c!"a + b * y ", c!"b * y "] := Outcome.run (by decide +kernel)
  obtain ⟨r, r', h4, h5, h6, h7, h8⟩ : ∃ r r', parseFallible cfg51 c!"return x * y" = .ok r ∧ parseFallible cfg51 c!"return a + b" = .ok r' ∧
      (r.errors.isEmpty = true ∧ r.silent = 0) ∧ (r'.errors.isEmpty = true ∧ r'.silent = 0) ∧
      (swapped .exprVar .exprBinary c!"x " c!"a + b" r.ast.nodes r'.ast.nodes).any (fun n => spaced (n.flat.map (·.token.type)) == c!"return a + b * y " &&
        textsOf .exprBinary n == [c!"a + b* y", c!"a + b"]) = true := Outcome.run₂ (by decide +kernel)
  obtain ⟨n, h9, h10⟩ := any_some h8
  rw [Bool.and_eq_true, beq_iff_eq, beq_iff_eq] at h10
  exact ⟨r, r', h4, h5, h6, h7, n, h9, h10.1, h10.2, r₁, h1, h2, h3⟩

end FM.Props
