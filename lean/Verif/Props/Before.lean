import Verif.Spec.Before
import Verif.Proofs.Before
import Verif.Props.Append
import Verif.Proofs.LaterLex

/-!
# Properties of what stands in front of an error: C69
-/

namespace FM.Props
open FM FM.Spec FM.Parser FM.Parser.Clean FM.Parser.Forward FM.Proofs.Before

variable {c : Cfg} {source : Text} {rs : List (LexRes TokRef)} {r : AstResult}

theorem nexts_of_beginning {s : Symbol} (h : s ∈ beginning) : s ∈ nexts ∧ s ≠ .leftParen ∧ s ≠ .twoColons := by
  revert s
  decide

theorem behind_of {ss : List (Node × Option TokRef)} {t : TokRef} (h : Begins c t ∨ closedBySemicolon (ss.map stmtNode) = true) : Behind c ss t := by
  intro m hm
  rcases h with (h | h | ⟨s, hs, h⟩ | ⟨hl, h⟩) | h
  · obtain ⟨x, hx⟩ : Nam t := by
      cases hq : t.token.type <;> rw [hq] at h <;> first | exact ⟨_, hq⟩ | cases h
    exact ⟨.inl ⟨x, hx⟩, is_nam ⟨x, hx⟩, fun _ => is_nam ⟨x, hx⟩⟩
  · have := isEof_iff.2 h
    exact ⟨.inr (.inl this), is_eof this, fun _ => is_eof this⟩
  · obtain ⟨h1, h2, h3⟩ := nexts_of_beginning hs
    have hsym : Sym t s := h
    exact ⟨.inr (.inr ⟨s, h1, hsym⟩), (is_sym hsym).trans (decide_eq_false h2), fun _ => (is_sym hsym).trans (decide_eq_false h3)⟩
  · have hsym : Sym t .twoColons := h
    exact ⟨.inr (.inr ⟨_, by decide, hsym⟩), (is_sym hsym).trans rfl, fun hl' => by
      have : c.has .luau = true := hl'
      rw [hl] at this; cases this⟩
  · unfold closedBySemicolon at h
    rw [List.getLast?_map, hm] at h
    cases h

/-- **C69.**  If the tokens of a source start with those of a list of statements of the grammar of the active version, and the next token
begins a statement or ends a block (or the last one of the statements is closed by a semicolon), then the result of parsing starts with
exactly these statements, whatever is behind them and whatever errors that has. -/
theorem statements_kept (hc : c.Reachable) (hl : lexAll c source = .ok rs) (he : errorsOf rs = []) (h : parseFallible c source = .ok r)
    {stmts : List Node} {t : TokRef} {rest : List TokRef}
    (ht : tokensOf rs = (Node.node .block [.node .vec stmts, .node .absent []]).flat ++ t :: rest)
    (hg : Conforms c (.cat .block) (.node .block [.node .vec stmts, .node .absent []]))
    (hp : c.has .luau = true → (Node.node .block [.node .vec stmts, .node .absent []]).Every Chosen)
    (hb : Begins c t ∨ closedBySemicolon stmts = true) :
    ∃ more last, r.ast.nodes = .node .block [.node .vec (stmts ++ more), last] := by
  have hok := all_ok_of_no_errors he fun es hr => failed_results_have_errors hc hl hr
  have hen : ∀ t ∈ tokensOf rs, ∀ s, t.token.type = .symbol s → Enabled c s := fun t hm s hs =>
    symbols_enabled hc hl (x := t.token) (List.mem_flatMap.2 ⟨t, hm, by simp [TokRef.flat]⟩) hs
  have hf := fits_of hg (fun t hm => hen t (by rw [ht]; exact List.mem_append_left _ hm)) hp
  obtain ⟨⟨ss, last⟩, hb', hf'⟩ := view_block hf
  have hy : (Node.node .block [.node .vec stmts, .node .absent []]).flat = yield (⟨ss, last⟩ : Blk) := by rw [hb', flat_blk]
  cases last with
  | some s => exact absurd hb' (by intro e; cases e)
  | none =>
  have hs : stmts = ss.map stmtNode := by
    simp only [Blk.node, optNode, vec] at hb'
    injection hb' with _ hb'
    injection hb' with hb' _
    injection hb'
  subst hs
  have hr : parseTokens c rs = .ok r := by
    obtain ⟨rs', h1, h2⟩ := parseFallible_ok h
    rw [hl] at h1
    cases h1
    exact h2
  rw [hok, ht, hy] at hr
  exact parseTokens_keeps hc.1 hf' (behind_of hb) (l := rest) (by simpa [yield] using hr)

theorem statementsOf_mapTok {f : TokRef → TokRef} (n : Node) : statementsOf (n.mapTok f) = (statementsOf n).map (·.mapTok f) := by
  match n with
  | .tok _ => rfl
  | .node k [] => cases k <;> rfl
  | .node k [_] => cases k <;> simp [statementsOf]
  | .node k [.tok _, _] => cases k <;> simp [statementsOf]
  | .node k [.node k' _, _] => 
    cases k <;> first
      | (simp [statementsOf]; done)
      | (cases k' <;> simp [statementsOf])
  | .node k (_ :: _ :: _ :: _) => cases k <;> simp [statementsOf]

/-- **C69, whatever the trivia and the positions.**  If the tokens of a source start with those of a program that is accepted and has no last
statement, then the result of parsing the source starts with the statements of that program, whatever is behind them. -/
theorem program_kept (hc : c.Reachable) {A : Text} {a : Ast} (hs : ¬ HasShebang A) (hA : parseFallible c A = .ok ⟨a, [], 0⟩) (hlast : ¬ HasLast a.nodes)
    (hl : lexAll c source = .ok rs) (he : errorsOf rs = []) (h : parseFallible c source = .ok r) {t : TokRef} {rest : List TokRef}
    (ht : (tokensOf rs).map plain = a.nodes.flat.map plain ++ (t :: rest).map plain) (hb : Begins c t ∨ closedBySemicolon (statementsOf a.nodes) = true) :
    statementsOf a.nodes |>.map (·.mapTok bare) |>.IsPrefix ((statementsOf r.ast.nodes).map (·.mapTok bare)) := by
  have hok := all_ok_of_no_errors he fun es hr => failed_results_have_errors hc hl hr
  obtain ⟨hg, hp, -⟩ := (source_accepted_iff hc hs).1 hA
  have ho : ∀ t ∈ a.nodes.flat, ∀ y, t.token.type = .symbol y → Enabled c y := by
    intro t hm y hy
    have : plain t ∈ (tokensOf rs).map plain := by rw [ht]; exact List.mem_append_left _ (List.mem_map.2 ⟨t, hm, rfl⟩)
    obtain ⟨u, hm, e⟩ := List.mem_map.1 this
    have e : u.token.type = t.token.type := congrArg (·.token.type) e
    exact symbols_enabled hc hl (x := u.token) (List.mem_flatMap.2 ⟨u, hm, by simp [TokRef.flat]⟩) (e.trans hy)
  have hf := fits_of hg ho hp
  obtain ⟨⟨ss, last⟩, hb', hf'⟩ := view_block hf
  have hy : a.nodes.flat = yield (⟨ss, last⟩ : Blk) := by rw [hb', flat_blk]
  cases last with
  | some s => exact absurd ⟨_, _, hb'⟩ hlast
  | none =>
  have hst : statementsOf a.nodes = ss.map stmtNode := by rw [hb']; rfl
  rw [hst] at hb ⊢
  have hr : parseTokens c rs = .ok r := by
    obtain ⟨rs', h1, h2⟩ := parseFallible_ok h
    rw [hl] at h1
    cases h1
    exact h2
  have hres : rs.map plainRes = ((yield ss ++ t :: rest).map .ok).map plainRes := by
    have := congrArg (List.map LexRes.ok) ht
    rw [hy] at this
    rw [hok]
    simpa [Function.comp_def, plainRes, yield] using this
  have hsame := Format.same_parseTokens (c := c) hres
  rw [hr] at hsame
  cases hq : parseTokens c ((yield ss ++ t :: rest).map .ok) <;> rw [hq] at hsame <;>
    simp only [Format.strip_out_ok, Format.strip_out_panic, Format.strip_out_diverge, reduceCtorEq, Outcome.ok.injEq] at hsame
  rename_i r'
  obtain ⟨more, last, h1⟩ := parseTokens_keeps hc.1 hf' (behind_of hb) (l := rest) hq
  have h4 : r.ast.nodes.mapTok plain = r'.ast.nodes.mapTok plain := congrArg (fun r : AstResult => r.ast.nodes) hsame
  have h5 : r.ast.nodes.mapTok bare = r'.ast.nodes.mapTok bare := by rw [← bare_plain, ← mapTok_comp, ← mapTok_comp, h4]
  rw [← statementsOf_mapTok, h5, statementsOf_mapTok, h1]
  exact ⟨more.map (·.mapTok bare), by simp [statementsOf]⟩

theorem place_append : ∀ (before : Text) (as bs : List TokenType), ∃ b, place before (as ++ bs) = place before as ++ place b bs
  | before, [], _ => ⟨before, rfl⟩
  | before, ty :: as, bs => by
    obtain ⟨b, h⟩ := place_append (before ++ ty.display) as bs
    exact ⟨b, by rw [List.cons_append, place, h]; rfl⟩

/-- The tokens of a source that ends with a line break are the first ones, with the same trivia and at the same positions, if more follows. -/
theorem first_tokens (hc : c.Reachable) {A B : Text} {F : List TokRef} {e : TokRef} (hs : ¬ HasShebang (A ++ B)) (hA : Tokenizes c A (F ++ [e]))
    (hend : A = [] ∨ A.getLast? = some '\n') {us : List TokRef} (h : Tokenizes c (A ++ B) us) : ∃ t rest, us = F ++ t :: rest := by
  obtain ⟨tyA, hA, attA⟩ := hA
  obtain ⟨tys, hAB, att⟩ := h
  obtain ⟨-, hA⟩ := hA.resolve_right (by
    rintro ⟨line, rest, tys, e, h, -⟩
    exact hs (shebang_append (e ▸ shebang_append h)))
  obtain ⟨-, hAB⟩ := hAB.resolve_right (by
    rintro ⟨line, rest, tys, e, h, -⟩
    exact hs (e ▸ shebang_append h))
  obtain ⟨ta, tb, rfl, rfl, b, htb⟩ := lexes_front hc.good hA hend hAB
  obtain ⟨ta', bs', h1', -, hends, -⟩ := lexes_append hc.good hA hend
  obtain ⟨rfl, -⟩ := List.append_inj' h1' rfl
  obtain ⟨tc, rfl⟩ := lexes_last htb
  obtain ⟨b1, e1⟩ := place_append [] ta [.eof]
  obtain ⟨b2, e2⟩ := place_append [] ta (tc ++ [.eof])
  obtain ⟨b3, e3⟩ := place_append b2 tc [.eof]
  rw [e1] at attA
  rw [e2, e3] at att
  obtain ⟨u, us', hu⟩ := attaches_some (e := ⟨position b3, endPosition b3 TokenType.eof.display, .eof⟩) rfl _ (place b2 tc) (Nat.le_refl _)
  obtain ⟨us₀, l, h5, h6⟩ := attaches_append (e := ⟨position b1, endPosition b1 TokenType.eof.display, .eof⟩) rfl attA rfl (by
    rw [← place_types [] ta, List.getLast?_map] at hends
    rcases hends with h2 | ⟨ty, h2, h7⟩
    · exact .inl (by simpa using h2)
    · cases hq : (place [] ta).getLast? with
      | none => rw [hq] at h2; cases h2
      | some x =>
        rw [hq] at h2
        cases h2
        exact .inr ⟨x, rfl, h7⟩)
  obtain ⟨rfl, -⟩ := List.append_inj' h5 rfl
  exact ⟨_, _, attaches_unique (h6 hu) att⟩

/-- **C69, for texts.**  A program that is accepted, ends with a line break and has no last statement is followed by some text.  Then the
result of parsing the whole starts with the statements of the program, whatever errors the text behind it has, provided the first token of
that text begins a statement or ends a block, or the program ends with a semicolon.  They are the same statements, with the same trivia and
at the same positions. -/
theorem text_kept (hc : c.Reachable) {A B : Text} {a : Ast} (hs : ¬ HasShebang (A ++ B)) (hA : parseFallible c A = .ok ⟨a, [], 0⟩)
    (hend : A = [] ∨ A.getLast? = some '\n') (hlast : ¬ HasLast a.nodes) (hl : lexAll c (A ++ B) = .ok rs) (he : errorsOf rs = [])
    (h : parseFallible c (A ++ B) = .ok r)
    (hb : (∀ t, (tokensOf rs)[a.nodes.flat.length]? = some t → Begins c t) ∨ closedBySemicolon (statementsOf a.nodes) = true) :
    ∃ more last, r.ast.nodes = .node .block [.node .vec (statementsOf a.nodes ++ more), last] := by
  have hsA : ¬ HasShebang A := fun h => hs (shebang_append h)
  obtain ⟨a1, a2, dropped, a3, a4⟩ := (source_accepted_iff hc hsA).1 hA
  obtain rfl : dropped = [] := a4.resolve_right fun h => hlast h.1
  rw [List.nil_append] at a3
  obtain ⟨t, rest, ht⟩ := first_tokens hc hs a3 hend ((tokenizes_iff hc).1 ⟨rs, hl, he, shebangKept_of_no_shebang hs rs, rfl⟩)
  obtain ⟨ss, last, h1, h2, -⟩ := block_shape a1
  obtain rfl := h2.resolve_right hlast
  have h3 : statementsOf a.nodes = ss := by rw [h1]; rfl
  rw [h3] at hb ⊢
  rw [h1] at a1 a2 ht hb
  exact statements_kept hc hl he h ht a1 a2 (hb.imp_left fun hb => hb t (by rw [ht]; simp))

theorem lastNext_of {ss : List (Node × Option TokRef)} {x : Node × Option TokRef} {t : TokRef} (h : EndsBlock (⟨ss, some x⟩ : Blk).node t) : LastNext x t := by
  rcases h with h | ⟨s, hs, h⟩ | ⟨h, hr⟩
  · exact .inl (.inl (.inr (isEof_iff.2 h)))
  · have hsym : Sym t s := h
    simp only [List.mem_cons, List.not_mem_nil, or_false] at hs
    rcases hs with rfl | rfl | rfl | rfl | rfl | rfl
    · exact .inl (.inl (.inl ⟨_, by decide, hsym⟩))
    · exact .inl (.inl (.inl ⟨_, by decide, hsym⟩))
    · exact .inl (.inl (.inl ⟨_, by decide, hsym⟩))
    · exact .inl (.inl (.inl ⟨_, by decide, hsym⟩))
    · exact .inl (.inr (.inl hsym))
    · exact .inl (.inr (.inr hsym))
  · refine .inr ⟨?_, ?_⟩
    · cases hq : t.token.type <;> rw [hq] at h <;> first | exact ⟨_, hq⟩ | cases h
    · rintro ⟨u, rfl⟩
      cases hr

/-- **C69, with a last statement.**  If the tokens of a source start with those of a block of the grammar that has a last statement, and the
next token ends a block, begins a last statement, or is a name that is no value of `return`, then the result of parsing has this last
statement and starts with these statements; if there are more statements, one of the errors says so. -/
theorem last_kept (hc : c.Reachable) (hl : lexAll c source = .ok rs) (he : errorsOf rs = []) (h : parseFallible c source = .ok r)
    {stmts : List Node} {last : Node} {t : TokRef} {rest : List TokRef}
    (ht : tokensOf rs = (Node.node .block [.node .vec stmts, .node .present [last]]).flat ++ t :: rest)
    (hg : Conforms c (.cat .block) (.node .block [.node .vec stmts, .node .present [last]]))
    (hp : c.has .luau = true → (Node.node .block [.node .vec stmts, .node .present [last]]).Every Chosen)
    (hb : EndsBlock (.node .block [.node .vec stmts, .node .present [last]]) t) :
    ∃ more, r.ast.nodes = .node .block [.node .vec (stmts ++ more), .node .present [last]] ∧ (more = [] ∨ ReportsLate r.errors) := by
  have hok := all_ok_of_no_errors he fun es hr => failed_results_have_errors hc hl hr
  have hen : ∀ t ∈ tokensOf rs, ∀ s, t.token.type = .symbol s → Enabled c s := fun t hm s hs =>
    symbols_enabled hc hl (x := t.token) (List.mem_flatMap.2 ⟨t, hm, by simp [TokRef.flat]⟩) hs
  have hf := fits_of hg (fun t hm => hen t (by rw [ht]; exact List.mem_append_left _ hm)) hp
  obtain ⟨⟨ss, o⟩, hb', hf'⟩ := view_block hf
  have hy : (Node.node .block [.node .vec stmts, .node .present [last]]).flat = yield (⟨ss, o⟩ : Blk) := by rw [hb', flat_blk]
  cases o with
  | none => exact absurd hb' (by intro e; cases e)
  | some x =>
  rw [hb'] at hb
  have hs : stmts = ss.map stmtNode ∧ last = stmtNode x := by
    simp only [Blk.node, optNode, vec] at hb'
    injection hb' with _ hb'
    injection hb' with h1 h2
    injection h1 with _ h1
    injection h2 with h2 _
    injection h2 with _ h2
    injection h2 with h2 _
    exact ⟨h1, h2⟩
  obtain ⟨rfl, rfl⟩ := hs
  have hr : parseTokens c rs = .ok r := by
    obtain ⟨rs', h1, h2⟩ := parseFallible_ok h
    rw [hl] at h1
    cases h1
    exact h2
  rw [hok, ht, hy] at hr
  exact parseTokens_ends hc.1 hf' (lastNext_of hb) hr

/-- **C69, for texts with a last statement.** -/
theorem text_last_kept (hc : c.Reachable) {A B : Text} {a : Ast} (hs : ¬ HasShebang (A ++ B)) (hA : parseFallible c A = .ok ⟨a, [], 0⟩)
    (hend : A = [] ∨ A.getLast? = some '\n') {stmts : List Node} {last : Node} (hlast : a.nodes = .node .block [.node .vec stmts, .node .present [last]])
    (hall : Tokenizes c A (a.nodes.flat ++ [a.eof])) (hl : lexAll c (A ++ B) = .ok rs) (he : errorsOf rs = []) (h : parseFallible c (A ++ B) = .ok r)
    (hb : ∀ t, (tokensOf rs)[a.nodes.flat.length]? = some t → EndsBlock a.nodes t) :
    ∃ more, r.ast.nodes = .node .block [.node .vec (stmts ++ more), .node .present [last]] ∧ (more = [] ∨ ReportsLate r.errors) := by
  obtain ⟨a1, a2, -⟩ := (source_accepted_iff hc fun h => hs (shebang_append h)).1 hA
  obtain ⟨t, rest, ht⟩ := first_tokens hc hs hall hend ((tokenizes_iff hc).1 ⟨rs, hl, he, shebangKept_of_no_shebang hs rs, rfl⟩)
  have hb := hb t (by rw [ht]; simp)
  rw [hlast] at a1 a2 ht hb
  exact last_kept hc hl he h ht a1 a2 hb

/-- Do the tokens that the tokenizer finds without errors go on, after that many, with one that begins a statement? -/
def goesOn (c : Cfg) (source : Text) (n : Nat) : Bool :=
  match lexAll c source with
  | .ok rs => (errorsOf rs).isEmpty && (tokensOf rs)[n]?.any fun t => decide (Begins c t)
  | _ => false

/-- A program and a text with several errors that meet the hypotheses: the two statements are kept, and two more are found. -/
example : ∃ r r', parseFallible cfg51 c!"local x = 1\nf(x) -- c\n" = .ok r ∧
    parseFallible cfg51 (c!"local x = 1\nf(x) -- c\n" ++ c!"local = 2\nif x then ) end g()\n") = .ok r' ∧
    (r.errors.isEmpty = true ∧ r.silent = 0) ∧ r'.errors.length = 4 ∧ hasLast r.ast.nodes = false ∧
    goesOn cfg51 (c!"local x = 1\nf(x) -- c\n" ++ c!"local = 2\nif x then ) end g()\n") r.ast.nodes.flat.length = true ∧
    (statementsOf r.ast.nodes).length = 2 ∧ (statementsOf r'.ast.nodes).length = 4 :=
  Outcome.run₂ (by decide +kernel)

/-- So do these, because of the semicolon. -/
example : ∃ r r', parseFallible cfg51 c!"x = f;\n" = .ok r ∧ parseFallible cfg51 (c!"x = f;\n" ++ c!"( then y = 1") = .ok r' ∧
    (r.errors.isEmpty = true ∧ r.silent = 0) ∧ r'.errors.length = 2 ∧ hasLast r.ast.nodes = false ∧ closedBySemicolon (statementsOf r.ast.nodes) = true ∧
    (statementsOf r.ast.nodes).length = 1 ∧ (statementsOf r'.ast.nodes).length = 2 :=
  Outcome.run₂ (by decide +kernel)

/-- The same for the end of a block. -/
def endsOn (c : Cfg) (source : Text) (block : Node) : Bool :=
  match lexAll c source with
  | .ok rs => (errorsOf rs).isEmpty && (tokensOf rs)[block.flat.length]?.any fun t => decide (EndsBlock block t)
  | _ => false

/-- A program with a last statement and a text that meet the hypotheses: the last statement is kept, the other one is dropped, and the statement
between them is reported. -/
example : ∃ r r', parseFallible cfg51 c!"f()\nreturn x\n" = .ok r ∧ parseFallible cfg51 (c!"f()\nreturn x\n" ++ c!"y = 1 return z") = .ok r' ∧
    (r.errors.isEmpty = true ∧ r.silent = 0) ∧ hasLast r.ast.nodes = true ∧ endsOn cfg51 (c!"f()\nreturn x\n" ++ c!"y = 1 return z") r.ast.nodes = true ∧
    r.ast.nodes.flat.length + 1 = (match lexAll cfg51 c!"f()\nreturn x\n" with | .ok rs => (tokensOf rs).length | _ => 0) ∧
    r'.errors.length = 1 ∧ textsOf .lastReturn r'.ast.nodes = [c!"return x\n"] ∧ (statementsOf r'.ast.nodes).length = 2 :=
  Outcome.run₂ (by decide +kernel)

/-- A name behind `return` becomes its value. -/
theorem return_changed : ∃ r r', parseFallible cfg51 c!"return\n" = .ok r ∧ parseFallible cfg51 (c!"return\n" ++ c!"y = 1") = .ok r' ∧
    (r.errors.isEmpty = true ∧ r.silent = 0) ∧ r'.errors.isEmpty = false ∧
    textsOf .lastReturn r.ast.nodes = [c!"return\n"] ∧ textsOf .lastReturn r'.ast.nodes = [c!"return\ny "] :=
  Outcome.run₂ (by decide +kernel)

/-- The condition on the next token is needed: without it, what is behind can become part of the last statement, and the statement is changed. -/
theorem statement_changed : ∃ r r', parseFallible cfg51 c!"f()\n" = .ok r ∧ parseFallible cfg51 (c!"f()\n" ++ c!"( then y = 1") = .ok r' ∧
    (r.errors.isEmpty = true ∧ r.silent = 0) ∧ hasLast r.ast.nodes = false ∧ r'.errors.isEmpty = false ∧
    textsOf .stmtCall r.ast.nodes = [c!"f()\n"] ∧ textsOf .stmtCall r'.ast.nodes ≠ [c!"f()\n"] :=
  Outcome.run₂ (by decide +kernel)

/-- In Luau, a text behind it can make a program lose a value it has. -/
theorem value_lost : ∃ r r', parseFallible cfgLuauOnly c!"local x = f\n" = .ok r ∧ parseFallible cfgLuauOnly (c!"local x = f\n" ++ c!":: ) y = 1") = .ok r' ∧
    (r.errors.isEmpty = true ∧ r.silent = 0) ∧ hasLast r.ast.nodes = false ∧ r'.errors.isEmpty = false ∧
    textsOf .localAssignment r.ast.nodes = [c!"local x = f\n"] ∧ textsOf .localAssignment r'.ast.nodes = [c!"local x = "] :=
  Outcome.run₂ (by decide +kernel)

end FM.Props
