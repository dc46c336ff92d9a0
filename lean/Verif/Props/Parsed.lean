import Verif.Props.Accepted
import Verif.Props.Visitors
import Verif.Proofs.Parser.Listed

/-!
# Properties of the trees of accepted sources: C25, C29, C31, C32

The theorems on trees, for the trees the parser returns: their hypotheses on the lists of annotations hold there.
-/

namespace FM.Props
open FM FM.Spec FM.Parser FM.Parser.Clean

variable {c : Cfg} {source : Text} {rs : List (LexRes TokRef)} {r : AstResult} {ast : Ast}

/-- `m` is `n` or a node inside `n`. -/
inductive Inside : Node → Node → Prop
  | self (n : Node) : Inside n n
  | child {m n : Node} {k : Kind} {cs : List Node} (h : n ∈ cs) (h' : Inside m n) : Inside m (.node k cs)

theorem everys_mem {p : Kind → List Node → Prop} {cs : List Node} (h : Node.Every.everys p cs) : ∀ n ∈ cs, n.Every p := by
  induction cs with
  | nil => nofun
  | cons x cs ih =>
    intro n hn
    rcases List.mem_cons.1 hn with rfl | hn
    · exact h.1
    · exact ih h.2 n hn

theorem Inside.every {p : Kind → List Node → Prop} {m n : Node} (h : Inside m n) (hn : n.Every p) : m.Every p := by
  induction h with
  | self => exact hn
  | child hm _ ih => exact ih (everys_mem hn.2 _ hm)

theorem Inside.typed {R : TokRef → Prop} {m n : Node} (h : Inside m n) (hn : Typed R n) : Typed R m := by
  induction h with
  | self => exact hn
  | child hm _ ih => exact ih (hn.cases.1 _ hm)

theorem parsed_typed (hc : c.Reachable) (h : parseFallible c source = .ok r) : ∃ R, HasTy R (.cat .block) r.ast.nodes := by
  obtain ⟨rs, hl, h⟩ := parseFallible_ok h
  have := parse_cases hc hl
  rw [h] at this
  exact ⟨_, this.1⟩

theorem accepted_every (hc : c.Reachable) (h : parseFallible c source = .ok r) (he : r.errors = []) (hs : r.silent = 0) :
    r.ast.nodes.Every (Grammatical c) := Conforms.every _ _ (accepted_grammar_partial hc h he hs)

/-- **C25, for parsed trees** (with Luau: nothing was skipped).  The tokens obtained by iterating `tokens()` on any node
of the tree of an accepted source are those of the printed node, each exactly once. -/
theorem parsed_tokens (hc : c.Reachable) (h : parseFallible c source = .ok r) (he : r.errors = []) (hs : r.silent = 0)
    {n : Node} (hn : Inside n r.ast.nodes) : ∃ l : List TokRef,
      answers n.items (List.replicate (l.length + 1) .front) = l.map some ++ [none] ∧ l.Perm n.flat := by
  obtain ⟨R, hty⟩ := parsed_typed hc h
  obtain ⟨ty, hty⟩ := hn.typed ⟨_, hty⟩
  exact tokens_permutation hty (hn.every (Grammatical.annotationsFit (accepted_every hc h he hs)))

/-- **C29, for parsed trees** (partial).  The default mutable visitor returns the Ast of an accepted source unchanged, if
Luau is active or not compiled in. -/
theorem parsed_default_visitor_partial (hc : c.Reachable) (h : parseFallible c source = .ok r) (he : r.errors = [])
    (hs : r.silent = 0) (hl : c.feat.luau = true → c.has .luau = true) (s : Unit) :
    r.ast.visitMut c.feat defaultVisitor s = (r.ast, s) := by
  obtain ⟨R, hty⟩ := parsed_typed hc h
  have hg := accepted_every hc h he hs
  exact default_visitor_partial c.feat r.ast hty (Grammatical.annotationsCompiled hg) (Grammatical.annotationsFull hl hg) s

/-- **C29, for parsed trees** (partial).  In any case the default mutable visitor changes no printed token. -/
theorem parsed_default_visitor_printed (hc : c.Reachable) (h : parseFallible c source = .ok r) (he : r.errors = [])
    (hs : r.silent = 0) (s : Unit) :
    (r.ast.visitMut c.feat defaultVisitor s).1.nodes.flat = r.ast.nodes.flat := by
  obtain ⟨R, hty⟩ := parsed_typed hc h
  have h := visitMut_inOrder c.feat (tokenVisitor id) r.ast.nodes ⟨_, hty⟩ (Grammatical.annotationsCompiled (accepted_every hc h he hs)) s
  rw [visitRefs_tokenVisitor, mapRef_id, List.map_id, tokenVisitor_id] at h
  exact (Prod.mk.inj h).1.symm

/-- The hypothesis is needed: if Luau is compiled in but not active, the parser lists no type for `...` (and the default
mutable visitor adds an entry `None`, as in `default_visitor_changes`). -/
theorem parsed_annotations_missing : ∃ r, parseFallible ⟨allCfg.feat, .lua51⟩ c!"function f(...) end" = .ok r ∧
    r.errors.isEmpty = true ∧ ¬ AnnotationsFull allCfg.feat r.ast.nodes := by
  let bad : Node → Bool := fun
    | .node .funcBody [_, _, names, types, _, _, _] => types.children.length != names.children.length
    | _ => false
  obtain ⟨r, h1, h2, h3⟩ : ∃ r, parseFallible ⟨allCfg.feat, .lua51⟩ c!"function f(...) end" = .ok r ∧
    r.errors.isEmpty = true ∧ bad (descend r.ast.nodes [0, 0, 0, 0, 3]) = true := Outcome.run (by decide +kernel)
  refine ⟨r, h1, h2, fun h => ?_⟩
  have h := every_descend (p := annotationsFull allCfg.feat) trivial [0, 0, 0, 0, 3] _ h
  revert h h3
  generalize descend r.ast.nodes _ = n
  intro h3 h
  simp only [bad] at h3
  split at h3
  · exact absurd (h.1 rfl) (bne_iff_ne.1 h3)
  · cases h3

/-- **C29 does not hold** for all parsed trees: the default mutable visitor adds an entry `None` there. -/
theorem parsed_default_visitor_changes : ∃ r, parseFallible ⟨allCfg.feat, .lua51⟩ c!"function f(...) end" = .ok r ∧
    r.errors.isEmpty = true ∧ (r.ast.visitMut allCfg.feat defaultVisitor ()).1.nodes.size ≠ r.ast.nodes.size :=
  Outcome.run (by decide +kernel)

/-- **C31, for parsed trees.**  A visitor that rewrites tokens rewrites every printed token of an accepted source once. -/
theorem parsed_token_visitor (hc : c.Reachable) (h : parseFallible c source = .ok r) (he : r.errors = []) (hs : r.silent = 0)
    (g : Token → Token) (s : Unit) :
    allTokens (r.ast.nodes.visitMut c.feat (tokenVisitor g) s).1.flat = (allTokens r.ast.nodes.flat).map g := by
  obtain ⟨R, hty⟩ := parsed_typed hc h
  exact token_visitor_printed c.feat g hty (Grammatical.annotationsCompiled (accepted_every hc h he hs)) s

theorem positioned_of_placed {before after : Text} {ts us : List Token} (h : Placed c before (ts ++ us) after) :
    Positioned before ts := by
  induction ts generalizing before with
  | nil => trivial
  | cons t ts ih => exact ⟨h.1, h.2.1, ih h.2.2.2⟩

/-- The printed tokens of an accepted source stand at their positions in the printed text. -/
theorem parsed_positions (hc : c.Reachable) (hl : lexAll c source = .ok rs) (h : parseFallible c source = .ok r)
    (he : r.errors = []) (hs : r.silent = 0) (hk : ShebangKept source rs) : Positioned [] (allTokens r.ast.nodes.flat) := by
  obtain ⟨d, h1, -⟩ := accepted_tokens_partial hc hl h he hs
  have hne : errorsOf rs = [] := by rw [← tokenizer_errors_reported hc hl h, he]; rfl
  obtain ⟨pre, l, hat, hrun, _, hk'⟩ := lexAll_run hc.good hl
  obtain ⟨rfl, _⟩ := hk' hk
  obtain ⟨-, h2⟩ := hrun.noErr hat hne
  rw [flatTokens, h1, List.flatMap_append] at h2
  exact positioned_of_placed h2

/-- The printed tokens of an accepted source are in order. -/
theorem parsed_ordered (hc : c.Reachable) (h : parseFallible c source = .ok r) (he : r.errors = []) (hs : r.silent = 0) :
    Ordered r.ast.nodes.flat := by
  obtain ⟨rs, hl, -⟩ := parseFallible_ok h
  obtain ⟨d, h1, -⟩ := accepted_tokens_partial hc hl h he hs
  have hne : errorsOf rs = [] := by rw [← tokenizer_errors_reported hc hl h, he]; rfl
  obtain ⟨pre, l, hat, hrun, _, _⟩ := lexAll_run hc.good hl
  obtain ⟨-, h2⟩ := hrun.noErr hat hne
  rw [flatTokens, h1, List.flatMap_append] at h2
  exact positioned_ordered (positioned_of_placed h2)

theorem parsed_listed (hc : c.Reachable) (h : parseFallible c source = .ok r) (he : r.errors = []) (hs : r.silent = 0) :
    Listed r.ast.nodes :=
  conf_listed rfl (accepted_grammar_partial hc h he hs) (parsed_ordered hc h he hs)

/-- **C27, for parsed trees** (partial: the start).  The range of every node of the tree of an accepted source starts where
its first printed token starts. -/
theorem parsed_range_start_partial (hc : c.Reachable) (h : parseFallible c source = .ok r) (he : r.errors = [])
    (hs : r.silent = 0) {n : Node} (hn : Inside n r.ast.nodes) {R : TokRef → Prop} {a : Ty} (ha : a.regular = true) (hty : HasTy R a n) :
    n.range.map Prod.fst = n.flat.head?.map fun t => t.token.start :=
  range_start_partial ha hty (hn.every (parsed_listed hc h he hs))

/-- **C27, for parsed trees** (partial: nodes that close).  The range of a node of the tree of an accepted source starts
where its first printed token starts and ends where its last printed token ends. -/
theorem parsed_range_partial (hc : c.Reachable) (h : parseFallible c source = .ok r) (he : r.errors = [])
    (hs : r.silent = 0) {n : Node} (hn : Inside n r.ast.nodes) {R : TokRef → Prop} {a : Ty} (ha : a.regular = true) (hty : HasTy R a n)
    (hcl : Closes n) :
    n.range = match n.flat.head?, n.flat.getLast? with
      | some t, some u => some (t.token.start, u.token.stop)
      | _, _ => none :=
  range_partial ha hty (hn.every (parsed_listed hc h he hs)) (hn.every (Grammatical.annotationsFit (accepted_every hc h he hs))) hcl

/-- **C32, for parsed trees.**  On the Ast of an accepted source `update_positions` changes no printed token. -/
theorem parsed_update_positions (hc : c.Reachable) (hl : lexAll c source = .ok rs) (h : parseFallible c source = .ok r)
    (he : r.errors = []) (hs : r.silent = 0) (hk : ShebangKept source rs) :
    (r.ast.updatePositions c.feat).nodes.flat = r.ast.nodes.flat ∧ (r.ast.updatePositions c.feat).eof = r.ast.eof := by
  obtain ⟨R, hty⟩ := parsed_typed hc h
  exact update_positions_unchanged_partial c.feat r.ast hty (Grammatical.annotationsCompiled (accepted_every hc h he hs))
    (parsed_positions hc hl h he hs hk)

/-- An accepted source with annotations. -/
example : ∃ rs r, lexAll cfgLuau c!"local function f(a: T, ...) return a end" = .ok rs ∧
    parseFallible cfgLuau c!"local function f(a: T, ...) return a end" = .ok r ∧ r.errors.isEmpty = true ∧ r.silent = 0 ∧
    r.ast.nodes.flat.length = 13 :=
  Outcome.run₂ (by decide +kernel)

end FM.Props
