import Verif.Props.Parsed
import Verif.Props.Parsing
import Verif.Props.Tokenizer
import Verif.Proofs.Ast.SavedSame
import Verif.Model.SavedErrors

/-!
# Properties C56, C57: storing trees with serde

`Node.save` and `load` (Model/Ast/Saved.lean) are what the derived `Serialize` and `Deserialize` implementations do.
-/

namespace FM.Props
open FM FM.Spec FM.Parser

variable {c : Cfg} {source : Text} {rs : List (LexRes TokRef)} {r : AstResult} {f : Features} {R R' : TokRef → Prop}

/-! ## C56 -/

/-- **C56** (partial), for nodes.  Reading back a stored node gives that node, if nothing was left out that reading insists
on, and an error otherwise; it never gives another node.  Missing: nodes with an ordinary string or, with Luau or Lua 5.4,
a `local` assignment without annotations, which cannot be read back (`parsed_not_restored`). -/
theorem saved_node_partial {a : Cat} {n : Node} (h : HasTy R (.cat a) n) (hf : FieldsCompiled f n) :
    (load f (.cat a) (n.save f) = some n ↔ Restorable f n) ∧
    (load f (.cat a) (n.save f) = none ↔ ¬ Restorable f n) := by
  rw [load_save (by rfl) h hf, ← keeps_iff ⟨_, h⟩]
  cases n.keeps f <;> simp

/-- **C56** (partial), for a whole Ast. -/
theorem saved_ast_partial {ast : Ast} (h : HasTy R (.cat .block) ast.nodes) (hf : FieldsCompiled f ast.nodes) :
    (Ast.load f (ast.save f) = some ast ↔ Restorable f ast.nodes ∧ ∀ k ∈ ast.eof.flat, ¬ depthZero k) ∧
    (Ast.load f (ast.save f) = none ↔ ¬ (Restorable f ast.nodes ∧ ∀ k ∈ ast.eof.flat, ¬ depthZero k)) := by
  have : Ast.load f (ast.save f) = (load f (.cat .block) (ast.nodes.save f)).bind fun n => (TokRef.load ast.eof.save).bind fun e =>
      some ⟨n, e⟩ := rfl
  rw [this, load_save (by rfl) h hf, ← keeps_iff ⟨_, h⟩, TokRef.load_save, ← TokRef.keeps_iff]
  cases ast.nodes.keeps f <;> cases ast.eof.keeps <;> simp

/-- **C56** (partial), for parsed trees (with Luau: nothing was skipped).  The Ast of an accepted source can be stored and
read back exactly if its strings are all in brackets with `=` and, with Luau, every `local` assignment has a type annotation
and so does every generic `for` whose names were looked at for types and, with Lua 5.4, every `local` assignment has an
attribute. -/
theorem parsed_saved_partial (hc : c.Reachable) (h : parseFallible c source = .ok r) (he : r.errors = []) (hs : r.silent = 0) :
    (Ast.load c.feat (r.ast.save c.feat) = some r.ast ↔
      r.ast.nodes.Every (nothingLeftOut c.feat) ∧ ∀ t ∈ r.ast.nodes.flat, ¬ depthZero t.token) ∧
    (Ast.load c.feat (r.ast.save c.feat) = some r.ast ∨ Ast.load c.feat (r.ast.save c.feat) = none) := by
  obtain ⟨rs, hl, -⟩ := parseFallible_ok h
  obtain ⟨R, hty⟩ := parsed_typed hc h
  have hg := accepted_every hc h he hs
  have key := saved_ast_partial hty (Grammatical.fieldsCompiled hg)
  obtain ⟨d, hd, -⟩ := accepted_tokens_partial hc hl h he hs
  have hno : ∀ t ∈ tokensOf rs, ∀ k ∈ t.leading ++ t.trailing, ¬ depthZero k := by
    rintro t ht k hk ⟨l, q, he⟩
    have h1 := trivia_attachment hc hl ht
    have h2 : k.type.isTrivia = true := by
      rcases List.mem_append.1 hk with hk | hk
      · exact h1.1 k hk
      · exact h1.2.1 k hk
    rw [he] at h2
    cases h2
  have htok : ∀ t ∈ tokensOf rs, ((∀ k ∈ t.flat, ¬ depthZero k) ↔ ¬ depthZero t.token) := by
    intro t ht
    constructor
    · intro h1; exact h1 _ (by simp [TokRef.flat])
    · intro h1 k hk
      simp only [TokRef.flat, List.mem_append, List.mem_cons] at hk
      rcases hk with hk | rfl | hk
      · exact hno t ht k (by simp [hk])
      · exact h1
      · exact hno t ht k (by simp [hk])
  have heof : ∀ k ∈ r.ast.eof.flat, ¬ depthZero k := by
    refine (htok _ (by rw [hd]; simp)).2 ?_
    rintro ⟨l, q, he⟩
    have h1 := (ast_tokens_partial hc hl h).2
    rcases lexAll_eof hc.good hl with ⟨rfl, -⟩ | ⟨init, t, h7, h8, -⟩
    · cases h1
    · rw [h7] at h1
      simp at h1
      rw [← h1, h8] at he
      cases he
  have hmem : ∀ t, t ∈ r.ast.nodes.tokens ↔ t ∈ r.ast.nodes.flat := by
    intro t
    have h1 := count_tokens t r.ast.nodes ⟨_, hty⟩ (Grammatical.annotationsFit hg)
    rw [← List.count_pos_iff, ← List.count_pos_iff, h1]
  have heq : Restorable c.feat r.ast.nodes ↔ r.ast.nodes.Every (nothingLeftOut c.feat) ∧ ∀ t ∈ r.ast.nodes.flat, ¬ depthZero t.token := by
    unfold Restorable
    refine and_congr_right fun _ => ?_
    constructor
    · intro h1 t ht
      exact (htok t (by rw [hd]; simp [ht])).1 (h1 t ((hmem t).2 ht))
    · intro h1 t ht
      have ht := (hmem t).1 ht
      exact (htok t (by rw [hd]; simp [ht])).2 (h1 t ht)
  rw [← heq]
  constructor
  · rw [key.1]; exact and_iff_left heof
  · by_cases h1 : Restorable c.feat r.ast.nodes
    · exact .inl (key.1.2 ⟨h1, heof⟩)
    · exact .inr (key.2.2 fun h2 => h1 h2.1)

theorem keeps_ast {ast : Ast} (h : ∃ R, HasTy R (.cat .block) ast.nodes) (hf : FieldsCompiled f ast.nodes) :
    Ast.load f (ast.save f) = if ast.nodes.keeps f && ast.eof.keeps then some ast else none := by
  obtain ⟨R, h⟩ := h
  have : Ast.load f (ast.save f) = (load f (.cat .block) (ast.nodes.save f)).bind fun n => (TokRef.load ast.eof.save).bind fun e =>
      some ⟨n, e⟩ := rfl
  rw [this, load_save (by rfl) h hf, TokRef.load_save]
  cases ast.nodes.keeps f <;> cases ast.eof.keeps <;> rfl

theorem saved_run (hc : c.Reachable) {P : AstResult → Prop} {b : Bool}
    (h : ∃ r, parseFallible c source = .ok r ∧ r.errors.isEmpty = true ∧ r.silent = 0 ∧
      (r.ast.nodes.keeps c.feat && r.ast.eof.keeps) = b ∧ P r) :
    ∃ r, parseFallible c source = .ok r ∧ r.errors = [] ∧ r.silent = 0 ∧
      Ast.load c.feat (r.ast.save c.feat) = (if b then some r.ast else none) ∧ P r := by
  obtain ⟨r, h1, h2, h3, h4, h5⟩ := h
  have h2 : r.errors = [] := List.isEmpty_iff.1 h2
  refine ⟨r, h1, h2, h3, ?_, h5⟩
  rw [keeps_ast (parsed_typed hc h1) (Grammatical.fieldsCompiled (accepted_every hc h1 h2 h3)), h4]

/-- Sources whose Ast can be read back. -/
example : (∃ r, parseFallible cfg51 c!"if a then f(1, [=[x]=]) end -- c\nlocal x = {1}" = .ok r ∧ r.errors = [] ∧ r.silent = 0 ∧
      Ast.load cfg51.feat (r.ast.save cfg51.feat) = some r.ast ∧ 10 < r.ast.nodes.flat.length) ∧
    ∃ r, parseFallible cfgLuau c!"local x: number = 1 for a: T, b in f do end f(`a{1}`)" = .ok r ∧ r.errors = [] ∧ r.silent = 0 ∧
      Ast.load cfgLuau.feat (r.ast.save cfgLuau.feat) = some r.ast ∧ 10 < r.ast.nodes.flat.length :=
  ⟨saved_run (b := true) cfg51_reachable (Outcome.run (by decide +kernel)),
   saved_run (b := true) cfgLuau_reachable (Outcome.run (by decide +kernel))⟩

/-- **C56 fails** of the code: what is stored for the Ast of an accepted source cannot be read back if the source has a
string in quotes or in `[[ ]]`, or with Luau if it has `local x = 1` or `for a in f do end`. -/
theorem parsed_not_restored :
    (∃ r, parseFallible cfg51 c!"f('x')" = .ok r ∧ r.errors = [] ∧ r.silent = 0 ∧ Ast.load cfg51.feat (r.ast.save cfg51.feat) = none) ∧
    (∃ r, parseFallible cfg51 c!"f[[x]]" = .ok r ∧ r.errors = [] ∧ r.silent = 0 ∧ Ast.load cfg51.feat (r.ast.save cfg51.feat) = none) ∧
    (∃ r, parseFallible cfgLuau c!"local x = 1" = .ok r ∧ r.errors = [] ∧ r.silent = 0 ∧
      Ast.load cfgLuau.feat (r.ast.save cfgLuau.feat) = none) ∧
    (∃ r, parseFallible cfgLuau c!"for a in f do end" = .ok r ∧ r.errors = [] ∧ r.silent = 0 ∧
      Ast.load cfgLuau.feat (r.ast.save cfgLuau.feat) = none) := by
  refine ⟨?_, ?_, ?_, ?_⟩
  · obtain ⟨r, h1, h2, h3, h4, -⟩ := saved_run (b := false) (P := fun _ => True) cfg51_reachable (source := c!"f('x')") (Outcome.run (by decide +kernel))
    exact ⟨r, h1, h2, h3, h4⟩
  · obtain ⟨r, h1, h2, h3, h4, -⟩ := saved_run (b := false) (P := fun _ => True) cfg51_reachable (source := c!"f[[x]]") (Outcome.run (by decide +kernel))
    exact ⟨r, h1, h2, h3, h4⟩
  · obtain ⟨r, h1, h2, h3, h4, -⟩ := saved_run (b := false) (P := fun _ => True) cfgLuau_reachable (source := c!"local x = 1") (Outcome.run (by decide +kernel))
    exact ⟨r, h1, h2, h3, h4⟩
  · obtain ⟨r, h1, h2, h3, h4, -⟩ := saved_run (b := false) (P := fun _ => True) cfgLuau_reachable (source := c!"for a in f do end") (Outcome.run (by decide +kernel))
    exact ⟨r, h1, h2, h3, h4⟩

theorem TokErrType.load_save (e : TokErrType) : TokErrType.load e.save = some e := by cases e <;> rfl

theorem TokErr.load_save (e : TokErr) : TokErr.load e.save = some e := by
  have : TokErr.load e.save = (TokErrType.load e.error.save).bind fun x => some ⟨x, e.range⟩ := rfl
  rw [this, TokErrType.load_save]; rfl

theorem mapM_tokErr (es : List TokErr) : (es.map TokErr.save).mapM TokErr.load = some es := by
  induction es with
  | nil => rfl
  | cons e es ih => rw [List.map_cons, List.mapM_cons, TokErr.load_save, ih]; rfl

/-- **C56, for errors** (partial).  A tokenizer error can always be stored and read back; a syntax error exactly if the token
it names is not an ordinary string. -/
theorem saved_error_partial (e : Err) : (Err.load e.save = some e ∨ Err.load e.save = none) ∧
    (Err.load e.save = some e ↔ ∀ t m range, e = .ast t m range → ¬ depthZero t) := by
  cases e with
  | tokenizer e =>
    have : Err.load (Err.tokenizer e).save = (TokErr.load e.save).map .tokenizer := rfl
    rw [this, TokErr.load_save]
    simp
  | ast t m range =>
    have : Err.load (Err.ast t m range).save = (Token.load t.save).bind fun t => some (.ast t (String.ofList m.toList) range) := by
      cases range <;> rfl
    rw [this, Token.load_save, String.ofList_toList]
    have hk : t.type.keeps = true ↔ ¬ depthZero t := by
      have := TokRef.keeps_iff ⟨[], t, []⟩
      simpa [TokRef.keeps, TokRef.flat] using this
    cases h : t.type.keeps with
    | true =>
      simp
      exact hk.1 h
    | false =>
      simp
      simpa [h] using hk

/-- **C56, for the results of the tokenizer** (partial).  A result of the tokenizer can be stored and read back exactly if
it has no ordinary string. -/
theorem saved_lexRes_partial (x : LexRes TokRef) : (LexRes.load TokRef.load (x.save TokRef.save) = some x ∨
      LexRes.load TokRef.load (x.save TokRef.save) = none) ∧
    (LexRes.load TokRef.load (x.save TokRef.save) = some x ↔ ∀ t ∈ tokensOf [x], ∀ k ∈ t.flat, ¬ depthZero k) := by
  cases x with
  | ok t =>
    have : LexRes.load TokRef.load (LexRes.save TokRef.save (.ok t)) = (TokRef.load t.save).map .ok := rfl
    rw [this, TokRef.load_save]
    have := TokRef.keeps_iff t
    cases h : t.keeps <;> simp [h, tokensOf] at this ⊢ <;> exact this
  | fatal es =>
    have : LexRes.load TokRef.load (LexRes.save TokRef.save (.fatal es)) = ((es.map TokErr.save).mapM TokErr.load).map .fatal := rfl
    rw [this, mapM_tokErr]
    simp [tokensOf]
  | recovered t es =>
    have : LexRes.load TokRef.load (LexRes.save TokRef.save (.recovered t es)) =
      (TokRef.load t.save).bind fun t => ((es.map TokErr.save).mapM TokErr.load).bind fun es => some (.recovered t es) := rfl
    rw [this, TokRef.load_save, mapM_tokErr]
    have := TokRef.keeps_iff t
    cases h : t.keeps <;> simp [h, tokensOf] at this ⊢ <;> exact this

/-- Errors of both kinds that can be read back. -/
example : ∃ r, parseFallible cfg51 c!"x = = $" = .ok r ∧ 1 < r.errors.length ∧ ∀ e ∈ r.errors, (Err.load e.save).isSome = true :=
  Outcome.run (by decide +kernel)

/-- **C56 fails** of errors that name a string, too. -/
theorem error_not_restored : ∃ r, parseFallible cfg51 c!"'x'" = .ok r ∧ r.errors.length = 1 ∧ ∀ e ∈ r.errors, (Err.load e.save).isNone = true :=
  Outcome.run (by decide +kernel)

/-! ## C57 -/

/-- **C57, for nodes.**  Two nodes of the same type that are stored as the same data have the same tokens, with the same
trivia and positions, in the order in which they are printed.  In particular they print the same. -/
theorem same_saved_node {a : Cat} {m n : Node} (hm : HasTy R (.cat a) m) (hn : HasTy R' (.cat a) n) (hfm : FieldsCompiled f m)
    (hfn : FieldsCompiled f n) (h : m.save f = n.save f) : m.flat = n.flat ∧ m.display = n.display := by
  have : m.flat = n.flat := by
    rw [← flat_trim ⟨_, hm⟩, save_inj (by rfl) hm hn hfm hfn h, flat_trim ⟨_, hn⟩]
  exact ⟨this, by rw [Node.display, Node.display, this]⟩

/-- **C57, for a whole Ast.** -/
theorem same_saved_ast {a b : Ast} (ha : HasTy R (.cat .block) a.nodes) (hb : HasTy R' (.cat .block) b.nodes)
    (hfa : FieldsCompiled f a.nodes) (hfb : FieldsCompiled f b.nodes) (h : a.save f = b.save f) :
    a.nodes.flat = b.nodes.flat ∧ a.eof = b.eof ∧ a.display = b.display := by
  have h1 : a.nodes.save f = b.nodes.save f ∧ a.eof.save = b.eof.save := by simpa [Ast.save] using h
  obtain ⟨h2, h3⟩ := same_saved_node ha hb hfa hfb h1.1
  have h4 := TokRef.save_inj h1.2
  exact ⟨h2, h4, by rw [Ast.display, Ast.display, h3, h4]⟩

/-- **C57, for parsed trees** (with Luau: nothing was skipped).  Accepted sources whose trees are stored as the same data
print the same. -/
theorem same_saved_parsed {source' : Text} {r' : AstResult} (hc : c.Reachable) (h : parseFallible c source = .ok r)
    (he : r.errors = []) (hs : r.silent = 0) (h' : parseFallible c source' = .ok r') (he' : r'.errors = []) (hs' : r'.silent = 0)
    (hsame : r.ast.save c.feat = r'.ast.save c.feat) :
    r.ast.nodes.flat = r'.ast.nodes.flat ∧ r.ast.eof = r'.ast.eof ∧ r.ast.display = r'.ast.display := by
  obtain ⟨R, hty⟩ := parsed_typed hc h
  obtain ⟨R', hty'⟩ := parsed_typed hc h'
  exact same_saved_ast hty hty' (Grammatical.fieldsCompiled (accepted_every hc h he hs))
    (Grammatical.fieldsCompiled (accepted_every hc h' he' hs')) hsame

/-- Different trees can be stored as the same data: the list of types is empty in one and has a `None` in the other. -/
theorem same_saved_different : ∃ m n : Node, HasTy (fun _ => True) (.cat .localAssignment) m ∧ HasTy (fun _ => True) (.cat .localAssignment) n ∧
    FieldsCompiled cfgLuau.feat m ∧ FieldsCompiled cfgLuau.feat n ∧ m ≠ n ∧ m.save cfgLuau.feat = n.save cfgLuau.feat ∧
    m.display = c!"local x" ∧ n.display = c!"local x" := by
  let t := fun y : TokenType => Node.tok ⟨[], .new y, []⟩
  let local_ := t (.symbol .kLocal)
  let space : Node := .tok ⟨[.new (.whitespace c!" ")], .new (.identifier c!"x"), []⟩
  refine ⟨.node .localAssignment [local_, .node .vec [], .node .punct [.node .pairEnd [space]], .node .vec [], .node .absent [], .node .punct []],
    .node .localAssignment [local_, .node .vec [.node .absent []], .node .punct [.node .pairEnd [space]], .node .vec [],
      .node .absent [], .node .punct []], ?_, ?_, ?_, ?_, ?_, ?_, ?_, ?_⟩
  · simp [HasTy, HasTys, AllTy, Kind.cat, Kind.sig, local_, space, t]
  · simp [HasTy, HasTys, AllTy, Kind.cat, Kind.sig, local_, space, t]
  · simp [FieldsCompiled, Node.Every, Node.Every.everys, fieldsCompiled, local_, space, t] <;> decide
  · simp [FieldsCompiled, Node.Every, Node.Every.everys, fieldsCompiled, local_, space, t] <;> decide
  · simp
  · rfl
  · decide
  · decide

end FM.Props
