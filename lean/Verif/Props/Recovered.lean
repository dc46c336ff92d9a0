import Verif.Props.Parsed
import Verif.Props.Hooks
import Verif.Props.Saved

/-!
# Properties of all trees the parser returns: C25, C29, C31, C32, C35, C43, C52, C56, C57, C59

`parse_fallible` returns a tree for every source, also for those with errors and those of which tokens were skipped.  The
theorems here hold of all of them.  Below are Luau sources that are accepted although tokens are skipped, and of whose trees
the properties of accepted sources fail (C19, C23, C35, C43).
-/

namespace FM.Props
open FM FM.Spec FM.Parser FM.Parser.Clean

variable {c : Cfg} {source : Text} {rs : List (LexRes TokRef)} {r : AstResult} {ast : Ast}

theorem every_imp {p q : Kind → List Node → Prop} (h : ∀ k cs, p k cs → q k cs) : ∀ n : Node, n.Every p → n.Every q := by
  intro n
  induction n using Node.induct with
  | ht t => intro _; trivial
  | hn k cs ih => exact fun hn => ⟨h k cs hn.1, everys_iff.2 fun m hm => ih m hm (everys_iff.1 hn.2 m hm)⟩

theorem parsed_lawful (hc : c.Reachable) (h : parseFallible c source = .ok r) : r.ast.nodes.Every (lawful c) := by
  obtain ⟨rs, hl, h⟩ := parseFallible_ok h
  exact parse_lawful hc hl h

theorem all_fit (hc : c.Reachable) (h : parseFallible c source = .ok r) : AnnotationsFit r.ast.nodes :=
  every_imp (fun _ _ h => h.2.1.1) _ (parsed_lawful hc h)

theorem all_compiled (hc : c.Reachable) (h : parseFallible c source = .ok r) : AnnotationsCompiled c.feat r.ast.nodes :=
  every_imp (fun _ _ h => h.2.1.2) _ (parsed_lawful hc h)

/-! ## C43 -/

/-- **C43** (partial: the versions).  No tree the parser returns, not even that of a source with errors, has a node for a
construct that does not exist in the active versions. -/
theorem all_available_partial (hc : c.Reachable) (h : parseFallible c source = .ok r) {k : Kind} {cs : List Node}
    (hn : Inside (.node k cs) r.ast.nodes) : available c k = true :=
  gate_available (hn.every (parsed_lawful hc h)).1.1

/-- The tree of a source with errors. -/
example : ∃ r, parseFallible cfg51 c!"local x = ( return y z" = .ok r ∧ r.errors.isEmpty = false ∧ r.ast.nodes.flat.length = 5 :=
  Outcome.run (by decide +kernel)

/-! ## C59 -/

/-- **C59.**  In every tree the parser returns, also for sources with errors, every field of a node that has tokens has those
of its production: keywords, brackets and operators are the ones the field is named after, names are identifiers, lists are
separated by their separators. -/
theorem all_tokens_named (hc : c.Reachable) (h : parseFallible c source = .ok r) : TokensNamed c.feat r.ast.nodes :=
  every_imp (fun _ _ h => h.2.2) _ (parsed_lawful hc h)

/-- So the tokens of a `while` loop are `while`, `do` and `end`, also if the parser had to invent them. -/
theorem while_tokens (hc : c.Reachable) (h : parseFallible c source = .ok r) {cs : List Node}
    (hn : Inside (.node .whileBlock cs) r.ast.nodes) :
    ∃ w e d b s, cs = [.tok w, e, .tok d, b, .tok s] ∧ w.token.type = .symbol .kWhile ∧ d.token.type = .symbol .kDo ∧
      s.token.type = .symbol .kEnd := by
  have h := (hn.every (all_tokens_named hc h)).1 (by simp [Kind.cat])
  revert h
  match cs with
  | [a, b, c, d, e] =>
    rintro ⟨⟨w, rfl, hw⟩, -, ⟨x, rfl, hx⟩, -, ⟨y, rfl, hy⟩, -⟩
    simp only [Term.Is, List.mem_singleton, exists_eq_left] at hw hx hy
    exact ⟨w, b, x, d, y, rfl, hw, hx, hy⟩
  | [] => exact False.elim
  | [_] => exact fun h => h.2.elim
  | [_, _] => exact fun h => h.2.2.elim
  | [_, _, _] => exact fun h => h.2.2.2.elim
  | [_, _, _, _] => exact fun h => h.2.2.2.2.elim
  | _ :: _ :: _ :: _ :: _ :: _ :: _ => exact fun h => h.2.2.2.2.2.elim

/-- A source with a `while` whose `do` is missing. -/
example : ∃ r, parseFallible cfg51 c!"while x y()" = .ok r ∧ r.errors.isEmpty = false ∧
    r.ast.display = c!"while x  do\nend\ny()" := Outcome.run (by decide +kernel)

/-- The exception `recovered` makes: the `->` of a function is reported and kept as the punctuation of its type. -/
theorem arrow_kept : ∃ r, parseFallible cfgLuau c!"function f() -> number end" = .ok r ∧ r.errors.isEmpty = false ∧
    r.ast.display = c!"function f() -> number end" := Outcome.run (by decide +kernel)

/-! ## C25 -/

/-- **C25, for all parsed trees.**  The tokens obtained by iterating `tokens()` on any node of any tree the parser returns are
those of the printed node, each exactly once. -/
theorem all_tokens (hc : c.Reachable) (h : parseFallible c source = .ok r) {n : Node} (hn : Inside n r.ast.nodes) :
    ∃ l : List TokRef, answers n.items (List.replicate (l.length + 1) .front) = l.map some ++ [none] ∧ l.Perm n.flat := by
  obtain ⟨R, hty⟩ := parsed_typed hc h
  obtain ⟨ty, hty⟩ := hn.typed ⟨_, hty⟩
  exact tokens_permutation hty (hn.every (all_fit hc h))

/-! ## C29, C31, C32 -/

/-- **C29, for all parsed trees** (partial: what is printed).  The default mutable visitor changes no printed token. -/
theorem all_default_visitor_partial (hc : c.Reachable) (h : parseFallible c source = .ok r) (s : Unit) :
    allTokens (r.ast.visitMut c.feat defaultVisitor s).1.nodes.flat = allTokens r.ast.nodes.flat ∧
    (r.ast.visitMut c.feat defaultVisitor s).1.eof = r.ast.eof := by
  obtain ⟨R, hty⟩ := parsed_typed hc h
  exact default_visitor_printed_partial c.feat r.ast hty (all_compiled hc h) s

/-- **C31, for all parsed trees.**  A visitor with state that overrides `visit_token` sees every printed token and trivia
once, in print order. -/
theorem all_token_visitor {σ : Type} (hc : c.Reachable) (h : parseFallible c source = .ok r) (g : Token → StateM σ Token) (s : σ) :
    (allTokens (r.ast.nodes.visitMut c.feat { token := g } s).1.flat, (r.ast.nodes.visitMut c.feat { token := g } s).2) =
      ((allTokens r.ast.nodes.flat).mapM g) s := by
  obtain ⟨R, hty⟩ := parsed_typed hc h
  exact token_visitor_in_order c.feat g hty (all_compiled hc h) s

/-- **C32, for all parsed trees** (partial: not for the `Eof` token).  After `update_positions` every token stands where the
text printed before it ends, also the tokens that error recovery invented; nothing else changes. -/
theorem all_update_positions_partial (hc : c.Reachable) (h : parseFallible c source = .ok r) :
    Positioned [] (allTokens (r.ast.updatePositions c.feat).nodes.flat) ∧
    (allTokens (r.ast.updatePositions c.feat).nodes.flat).map Token.type = (allTokens r.ast.nodes.flat).map Token.type ∧
    (r.ast.updatePositions c.feat).eof = r.ast.eof ∧ (r.ast.updatePositions c.feat).display = r.ast.display := by
  obtain ⟨R, hty⟩ := parsed_typed hc h
  exact update_positions_partial c.feat r.ast hty (all_compiled hc h)

/-! ## C52 -/

/-- **C52, for all parsed trees.**  Every hook on nodes is called once for each node of its type, by immutable and by mutable
visitors. -/
theorem all_hooks (hc : c.Reachable) (h : parseFallible c source = .ok r) (a : Cat) (ha : hasHooks a = true) :
    r.ast.nodes.visit.count (.enter a) = r.ast.nodes.types.count a ∧
    (r.ast.nodes.visitMutWith c.feat recorder []).2.count (.enter a) = r.ast.nodes.types.count a := by
  obtain ⟨R, hty⟩ := parsed_typed hc h
  exact ⟨visitor_once_per_node a ha hty (all_fit hc h), mut_visitor_once_per_node c.feat a ha hty (all_fit hc h)⟩

/-! ## C35 -/

/-- **C35** (partial: the form).  In every tree the parser returns, also for sources with errors, every block has statements
that are not last statements, and then at most one last statement.  Missing: that the last statement is the one that ended the
block in the source; it need not be if tokens were skipped (`statements_moved`). -/
theorem all_blocks_partial (hc : c.Reachable) (h : parseFallible c source = .ok r) : r.ast.nodes.Every blockForm := by
  obtain ⟨R, hty⟩ := parsed_typed hc h
  have key : ∀ n : Node, Typed R n → n.Every blockForm := by
    intro n
    induction n using Node.induct with
    | ht t => intro _; trivial
    | hn k cs ih =>
      intro hn
      refine ⟨?_, everys_iff.2 fun m hm => ih m hm (hn.cases.1 m hm)⟩
      unfold blockForm
      split
      · obtain ⟨v, _, h1, h2, rfl⟩ := hasTys_cons' (hn.cases.2 rfl)
        obtain ⟨l, _, h3, h4, rfl⟩ := hasTys_cons' h2
        obtain rfl := hasTys_nil.1 h4
        obtain ⟨ss, hss, rfl⟩ := hasTy_vec.1 h1
        refine ⟨ss, l, rfl, fun s hs => ?_, ?_⟩
        · obtain ⟨x, y, h5, -, rfl⟩ := hasTy_tup.1 (hss s hs)
          obtain ⟨k, cs, hk, -, rfl⟩ := hasTy_cat.1 h5
          exact ⟨k, cs, y, rfl, hk⟩
        · rcases hasTy_opt.1 h3 with rfl | ⟨p, hp, rfl⟩
          · exact .inl rfl
          · obtain ⟨x, y, h5, -, rfl⟩ := hasTy_tup.1 hp
            obtain ⟨k, cs, hk, -, rfl⟩ := hasTy_cat.1 h5
            refine .inr ⟨k, cs, y, rfl, ?_⟩
            cases k <;> first | (cases hk; done) | simp
      · trivial
  exact key _ ⟨_, hty⟩

/-! ## C56, C57 -/

theorem fields_of_available {R : TokRef → Prop} : ∀ n : Node, Typed R n → n.Every (lawful c) → FieldsCompiled c.feat n := by
  have opt : c.feat.luau = false → ∀ {a : Cat} {x : Node}, a ∈ [Cat.luauAttr, .typeInst, .typeSpec, .genericDecl] →
      HasTy R (.opt (.cat a)) x → x.Every (lawful c) → x.children = [] := by
    intro hf a x ha hx he
    rcases hasTy_opt.1 hx with rfl | ⟨y, hy, rfl⟩
    · rfl
    · obtain ⟨k, cs, hk, -, rfl⟩ := hasTy_cat.1 hy
      have := gate_available he.2.1.1.1
      rw [luau_unavailable hf ha k hk] at this
      cases this
  have many : c.feat.luau = false → ∀ {a : Cat} {x : Node}, a ∈ [Cat.luauAttr, .typeInst, .typeSpec, .genericDecl] →
      HasTy R (.vec (.cat a)) x → x.Every (lawful c) → x.children = [] := by
    intro hf a x ha hx he
    obtain ⟨cs, hcs, rfl⟩ := hasTy_vec.1 hx
    cases cs with
    | nil => rfl
    | cons y ys =>
      obtain ⟨k, cs, hk, -, rfl⟩ := hasTy_cat.1 (hcs y (by simp))
      have := gate_available he.2.1.1.1
      rw [luau_unavailable hf ha k hk] at this
      cases this
  intro n
  induction n using Node.induct with
  | ht t => intro _ _; trivial
  | hn k cs ih =>
    intro hn he
    refine ⟨?_, everys_iff.2 fun m hm => ih m hm (hn.cases.1 m hm) (everys_iff.1 he.2 m hm)⟩
    have hch := everys_iff.1 he.2
    have hsig := hn.cases.2
    have hcomp := he.1.2.1.2
    unfold fieldsCompiled
    split
    · intro hf; exact many hf (by simp) (hasTys_cons_cons.1 (hsig rfl)).1 (hch _ (by simp))
    · intro hf; exact many hf (by simp) (hasTys_cons_cons.1 (hsig rfl)).1 (hch _ (by simp))
    · intro hf; exact many hf (by simp) (hasTys_cons_cons.1 (hsig rfl)).1 (hch _ (by simp))
    · intro hf
      have h := hsig rfl
      simp only [Kind.sig, hasTys_cons_cons] at h
      exact opt hf (by simp) h.2.2.1 (hch _ (by simp))
    · intro hf
      have h := hsig rfl
      simp only [Kind.sig, hasTys_cons_cons] at h
      exact opt hf (by simp) h.2.2.2.2.2.2.2.2.2.2.2.1 (hch _ (by simp))
    · exact hcomp
    · intro hf
      have h := hsig rfl
      simp only [Kind.sig, hasTys_cons_cons] at h
      exact ⟨opt hf (by simp) h.1 (hch _ (by simp)), hcomp hf, opt hf (by simp) h.2.2.2.2.1 (hch _ (by simp))⟩
    · exact hcomp
    · trivial

theorem all_fields (hc : c.Reachable) (h : parseFallible c source = .ok r) : FieldsCompiled c.feat r.ast.nodes := by
  obtain ⟨R, hty⟩ := parsed_typed hc h
  exact fields_of_available _ ⟨_, hty⟩ (parsed_lawful hc h)

/-- **C56, for all parsed trees** (partial).  The Ast of any source, stored and read back, is the same or is not read at all. -/
theorem all_saved_partial (hc : c.Reachable) (h : parseFallible c source = .ok r) :
    Ast.load c.feat (r.ast.save c.feat) = some r.ast ∨ Ast.load c.feat (r.ast.save c.feat) = none := by
  obtain ⟨R, hty⟩ := parsed_typed hc h
  have h := saved_ast_partial hty (all_fields hc h)
  rw [h.1, h.2]
  exact Classical.em _

/-- **C57, for all parsed trees.**  Sources whose trees are stored as the same data have trees that print the same. -/
theorem all_same_saved {source' : Text} {r' : AstResult} (hc : c.Reachable) (h : parseFallible c source = .ok r)
    (h' : parseFallible c source' = .ok r') (hsame : r.ast.save c.feat = r'.ast.save c.feat) :
    r.ast.nodes.flat = r'.ast.nodes.flat ∧ r.ast.eof = r'.ast.eof ∧ r.ast.display = r'.ast.display := by
  obtain ⟨R, hty⟩ := parsed_typed hc h
  obtain ⟨R', hty'⟩ := parsed_typed hc h'
  exact same_saved_ast hty hty' (all_fields hc h) (all_fields hc h') hsame

/-! ## Accepted sources of which tokens are skipped -/

/-- **C23 does not hold** of all accepted sources: `x = - a ^ b ^ c :: ^ d` is accepted, as `(- a) ^ d`. -/
theorem accepted_precedence_fails : ∃ r, parseFallible cfgLuau c!"x = - a ^ b ^ c :: ^ d" = .ok r ∧ r.errors = [] ∧
    r.ast.display = c!"x = - a ^ d" ∧ ¬ r.ast.nodes.Every precedence := by
  let bad : Node → Bool := fun
    | .node .exprBinary [l, o, _] => decide (Edge.unary ∈ operators l) && !decide (row (opText o) < unaryRow)
    | _ => false
  obtain ⟨r, h1, h3, h4, h2⟩ : ∃ r, parseFallible cfgLuau c!"x = - a ^ b ^ c :: ^ d" = .ok r ∧ r.errors.isEmpty = true ∧
    r.ast.display = c!"x = - a ^ d" ∧ bad (descend r.ast.nodes [0, 0, 0, 0, 2, 0, 0]) = true := Outcome.run (by decide +kernel)
  refine ⟨r, h1, List.isEmpty_iff.1 h3, h4, fun h => ?_⟩
  have h := every_descend (p := precedence) trivial [0, 0, 0, 0, 2, 0, 0] _ h
  revert h h2
  generalize descend r.ast.nodes _ = n
  intro h2 h
  simp only [bad] at h2
  split at h2
  · rw [Bool.and_eq_true_iff] at h2
    have h3 := h.1.2.1 (of_decide_eq_true h2.1)
    rw [decide_eq_true h3] at h2
    exact absurd h2.2 (by decide)
  · cases h2

/-- **C43 does not hold** of all accepted sources. -/
theorem accepted_grammar_fails : ∃ r, parseFallible cfgLuau c!"x = - a ^ b ^ c :: ^ d" = .ok r ∧ r.errors = [] ∧
    ¬ Conforms cfgLuau (.cat .block) r.ast.nodes := by
  obtain ⟨r, h1, h2, -, h3⟩ := accepted_precedence_fails
  exact ⟨r, h1, h2, fun h => h3 (Grammatical.precedence (Conforms.every _ _ h))⟩

/-- A function that is not finished is accepted, and printed as one that is: the source has no `)` and no `end`. -/
theorem accepted_unfinished : ∃ r, parseFallible cfgLuau c!"local function f(...:" = .ok r ∧ r.errors.isEmpty = true ∧
    r.ast.display = c!"local function f(...)end" :=
  Outcome.run (by decide +kernel)

/-- **C35 does not hold** of all accepted sources: a statement after the `return` of a source is accepted and moved in front
of it. -/
theorem statements_moved : ∃ r, parseFallible cfgLuau c!"while x:: do end return 1 y = 2" = .ok r ∧ r.errors.isEmpty = true ∧
    r.ast.display = c!"do end y = 2return 1 " :=
  Outcome.run (by decide +kernel)

end FM.Props
