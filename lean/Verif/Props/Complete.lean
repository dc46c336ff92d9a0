import Verif.Proofs.Parser.Ordinary
import Verif.Props.Accepted
import Verif.Proofs.Parser.Decide

/-!
# Properties of the programs of the grammar: C44, C50

Every program of the grammar of the active version is accepted, and its tree is the one of the grammar (C44). In Luau, it
is the one of the reading that is meant (C50).
-/

namespace FM.Props
open FM FM.Spec FM.Parser FM.Parser.Clean FM.Parser.Forward

variable {c : Cfg} {source : Text} {rs : List (LexRes TokRef)} {ast : Ast}

/-- **C50.**  In every version, a source without tokenizer errors whose tokens are those of a tree of the grammar of the
active version, followed by at most one superfluous last statement, is accepted, and the result is that tree.  In Luau,
where tokens can have several trees, it is the tree of the reading that is meant. -/
theorem chosen_run (hc : c.Reachable) (hl : lexAll c source = .ok rs)
    (he : errorsOf rs = []) {dropped : List TokRef} (ht : tokensOf rs = ast.nodes.flat ++ (dropped ++ [ast.eof]))
    (hg : Conforms c (.cat .block) ast.nodes) (hp : c.has .luau = true → ast.nodes.Every Chosen)
    (hd : dropped = [] ∨ HasLast ast.nodes ∧ Superfluous c ast.nodes dropped) :
    parseFallible c source = .ok ⟨ast, [], 0⟩ := by
  have hok := all_ok_of_no_errors he fun es hr => failed_results_have_errors hc hl hr
  have hen : ∀ t ∈ tokensOf rs, ∀ s, t.token.type = .symbol s → Enabled c s := fun t hm s hs =>
    symbols_enabled hc hl (x := t.token) (List.mem_flatMap.2 ⟨t, hm, by simp [TokRef.flat]⟩) hs
  have hf : Fits c .block ast.nodes := fits_of hg (fun t hm => hen t (by rw [ht]; simp [hm])) hp
  obtain ⟨b, hb, hf⟩ := view_block hf
  have hy : ast.nodes.flat = yield b := by rw [hb, flat_blk]
  have heof : ast.eof.isEof = true := by
    rcases lexAll_eof hc.good hl with ⟨rfl, -⟩ | ⟨init, t, h7, h9, -⟩
    · simp [tokensOf] at ht
    · rw [h7, ← List.append_assoc] at ht
      have := (List.append_inj' ht rfl).2
      cases this
      exact isEof_iff.2 h9
  have hx : ∃ x : Option (Node × Option TokRef), dropped = yield x ∧ (∀ s, x = some s → SemiF c .lastStmt s) ∧
      (b.last = none → x = none) ∧ (∀ s s', b.last = some s → x = some s' → Bare s → kindOf s'.1 ≠ some .lastContinue) := by
    rcases hd with rfl | ⟨⟨ss, last, h1⟩, n, q, h2, rfl, h3, h4⟩
    · exact ⟨none, rfl, nofun, fun _ => rfl, nofun⟩
    · have hn := fits_of h2 (fun t hm => hen t (by rw [ht]; exact List.mem_append_right _ (List.mem_append_left _ hm))) h4
      obtain ⟨s, h5, hs⟩ := view_semi hn
      have h6 : n = s.1 := by
        unfold stmtNode at h5
        injection h5 with _ h5
        injection h5
      rw [h5]
      refine ⟨some s, by rw [flat_stmtNode]; rfl, fun _ h => by cases h; exact hs, fun h => ?_, fun s1 s2 h7 h8 ⟨t, h9⟩ hk => ?_⟩
      · rw [hb, Blk.node, h] at h1
        cases h1
      · cases h8
        subst h9
        have h10 := h3 (by rw [isOne, h6, hk]; rfl)
        rw [hb, Blk.node, h7] at h10
        cases h10
  obtain ⟨x, rfl, hx, hbx, hbr⟩ := hx
  have hd : parseTokens c rs ≠ .diverge := by
    have := parse_cases hc hl
    intro h
    rw [h] at this
    exact this
  rw [hok, ht, hy] at hd
  have := parseTokens_runs hc.1 hf hx hbx hbr heof hd
  unfold parseFallible
  rw [hl]
  show parseTokens c rs = _
  rw [hok, ht, hy, this, ← hb]

/-- **C50, for `parse`.** -/
theorem chosen_accepted_dropping (hc : c.Reachable) (hl : lexAll c source = .ok rs)
    (he : errorsOf rs = []) {dropped : List TokRef} (ht : tokensOf rs = ast.nodes.flat ++ (dropped ++ [ast.eof]))
    (hg : Conforms c (.cat .block) ast.nodes) (hp : c.has .luau = true → ast.nodes.Every Chosen)
    (hd : dropped = [] ∨ HasLast ast.nodes ∧ Superfluous c ast.nodes dropped) : parse c source = .ok (.ok ast) :=
  parse_ok_iff.2 ⟨_, chosen_run hc hl he ht hg hp hd, rfl, rfl⟩

/-- After `return` without values and without a semicolon, `continue` is not dropped: it is the value. -/
theorem continue_is_value (hc : c.Reachable) (hl : lexAll c source = .ok rs) (h : parseFallible c source = .ok ⟨ast, [], 0⟩)
    {s : Node × Option TokRef} (hs : SemiC c .lastStmt s) (hf : Fits c .block ast.nodes)
    (hen : ∀ t ∈ tokensOf rs, ∀ y, t.token.type = .symbol y → Enabled c y)
    (ht : tokensOf rs = ast.nodes.flat ++ (yield s ++ [ast.eof])) (heof : ast.eof.isEof = true)
    (hk : isOne [.lastContinue] s.1 = true) : openReturn ast.nodes = false := by
  have he : errorsOf rs = [] := by rw [← tokenizer_errors_reported hc hl h]; rfl
  have hok := all_ok_of_no_errors he fun es hr => failed_results_have_errors hc hl hr
  obtain ⟨⟨ss, last⟩, hb, hf⟩ := view_block hf
  cases last with
  | none => rw [hb]; rfl
  | some r =>
    obtain ⟨m, o⟩ := r
    cases o with
    | some t => rw [hb]; simp [Blk.node, optNode, stmtNode, optTok, Node.some, openReturn]
    | none =>
      have hm := view_last (hf.last _ rfl).1
      revert hb
      dsimp only at hm
      cases hm with
      | continue_ => intro hb; rw [hb]; rfl
      | break_ => intro hb; rw [hb]; rfl
      | @return_ t es h3 h4 =>
        intro hb
        rcases h4 with rfl | h4
        · exfalso
          obtain ⟨n, q⟩ := s
          obtain ⟨h5, h6⟩ := hs
          have hfs : ∀ {x}, x ∈ n.flat → x ∈ tokensOf rs := fun {x} hx => by rw [ht]; simp [hx]
          have hv := view_last (fits_of h5.1 (fun x hx => hen x (hfs hx)) h5.2)
          cases hv with
          | break_ => cases hk
          | return_ => cases hk
          | @continue_ w hlu hw =>
            have hw' : w.isIdent = true := isIdent_iff.2 ⟨_, hw⟩
            obtain ⟨e, hce, hfl⟩ : ∃ e, Conf c .expr e ∧ e.flat = [w] := ⟨.node .exprVar [.node .varName [.tok w]], by conf; rfl, by flat⟩
            obtain ⟨hr, hflat⟩ :=
              returnNode_conf (c := c) (is_iff.2 h3) (es := ⟨[.end e]⟩) (by simp [PEl, Pair.value, Pair.punctuation, hce])
                (by simp [Clean.Sep, Pair.punctuation])
            have hflat : (returnNode t ⟨[.end e]⟩).flat = [t, w] := by simpa [hfl] using hflat
            have hty : tokensOf rs = yield (⟨ss, some (returnNode t ⟨[.end e]⟩, q)⟩ : Blk) ++ (yield (none : Option (Node × Option TokRef)) ++ [ast.eof]) := by
              rw [ht, hb, flat_blk]
              have h7 : (returnNode t .new).flat = [t] := by unfold returnNode; flat
              have h8 : (Node.node .lastContinue [.tok w]).flat = [w] := by flat
              simp [yield_blk, yield_prod, yield_node, h7, h8, hflat]
            have hF : BlkF c ⟨ss, some (returnNode t ⟨[.end e]⟩, q)⟩ := by
              refine ⟨hf.stmts, fun s hs => ?_, hf.distincts, hf.asserts⟩
              cases hs
              refine ⟨fits_of hr.1 (fun x hx => hen x ?_) hr.2, fun u hu => ?_⟩
              · rw [hty]; simp only [yield_blk, yield_some, yield_prod, yield_node]; simp [hx]
              · subst hu; exact (by have := optP_some.1 h6; exact is_iff.1 this)
            have hd : parseTokens c rs ≠ .diverge := by
              have := parse_cases hc hl
              intro h
              rw [h] at this
              exact this
            rw [hok, hty] at hd
            have hrun := parseTokens_runs hc.1 hF (x := none) (fun _ h => by cases h) (fun _ => rfl) (fun _ _ _ h => by cases h) heof hd
            unfold parseFallible at h
            rw [hl] at h
            have h : parseTokens c rs = .ok ⟨ast, [], 0⟩ := h
            rw [hok, hty, hrun] at h
            simp only [Outcome.ok.injEq, AstResult.mk.injEq, and_true] at h
            rw [← h] at hb
            simp [Blk.node, stmtNode, optTok, optNode, returnNode, punct, Punctuated.new, Node.some] at hb
        · rw [hb]
          cases hp : es.pairs with
          | nil => rw [hp] at h4; cases h4
          | cons x xs => simp [Blk.node, stmtNode, optTok, openReturn, returnNode, punct, hp, Node.some, optNode]

/-- **C50, both directions.**  In every version, the sources that are accepted without skipping anything are those without
tokenizer errors whose tokens are those of a tree of the grammar, in Luau of the reading that is meant, followed by at most one
superfluous last statement. -/
theorem chosen_iff (hc : c.Reachable) (hl : lexAll c source = .ok rs) :
    parseFallible c source = .ok ⟨ast, [], 0⟩ ↔ errorsOf rs = [] ∧ Conforms c (.cat .block) ast.nodes ∧
      (c.has .luau = true → ast.nodes.Every Chosen) ∧ ∃ dropped, tokensOf rs = ast.nodes.flat ++ (dropped ++ [ast.eof]) ∧
        (dropped = [] ∨ HasLast ast.nodes ∧ Superfluous c ast.nodes dropped) := by
  constructor
  · intro h
    obtain ⟨h0, b, x, h1, h2, h3, h4, h5, h6⟩ := accepted_run hc hl h rfl rfl
    dsimp only at h1 h3 h4
    have h7 : Conf c .block ast.nodes := h1 ▸ h2.node
    have hen : ∀ t ∈ tokensOf rs, ∀ s, t.token.type = .symbol s → Enabled c s := fun t hm s hs =>
      symbols_enabled hc hl (x := t.token) (List.mem_flatMap.2 ⟨t, hm, by simp [TokRef.flat]⟩) hs
    have h8 : tokensOf rs = ast.nodes.flat ++ (yield x ++ [ast.eof]) := by rw [h1, flat_blk]; exact h3
    refine ⟨h0, h7.1, h7.2, yield x, h8, ?_⟩
    cases x with
    | none => exact .inl rfl
    | some s =>
      have h9 := optP_some.1 h5
      have h10 := h9.node
      refine .inr ⟨?_, s.1, optTok s.2, h10.1, flat_stmtNode s, fun hk => ?_, h10.2⟩
      · cases hb : b.last with
        | none => cases h6 hb
        | some x => exact ⟨_, _, by rw [h1, Blk.node, hb]; rfl⟩
      · have hf : Fits c .block ast.nodes := fits_of h7.1 (fun t hm => hen t (by rw [h8]; simp [hm])) h7.2
        exact continue_is_value hc hl h h9 hf hen h8 h4 hk
  · rintro ⟨h1, h2, h3, d, h4, h5⟩
    exact chosen_run hc hl h1 h4 h2 h3 h5

/-- **C43, in Luau.**  The tree of a source that is accepted without skipping anything is the one of the reading that is meant. -/
theorem accepted_chosen (hc : c.Reachable) (hlu : c.has .luau = true) {r : AstResult} (h : parseFallible c source = .ok r)
    (he : r.errors = []) (hs : r.silent = 0) : r.ast.nodes.Every Chosen := by
  obtain ⟨ast, es, k⟩ := r
  cases he
  cases hs
  obtain ⟨rs, hl, -⟩ := parseFallible_ok h
  exact ((chosen_iff hc hl).1 h).2.2.1 hlu

/-- A `continue` that is dropped, and one that is the value of `return`. -/
example : ∃ r r', parseFallible cfgLuau c!"local x: T<A, B...> = f() return x continue;" = .ok r ∧
    parseFallible cfgLuau c!"local x: T<A, B...> = f() return continue" = .ok r' ∧
    r.errors.isEmpty = true ∧ r.silent = 0 ∧ r'.errors.isEmpty = true ∧ r'.silent = 0 ∧
    r.ast.display = c!"local x: T<A, B...> = f() return x " ∧ r'.ast.display = c!"local x: T<A, B...> = f() return continue" ∧
    chosen r.ast.nodes = true ∧ openReturn r.ast.nodes = false ∧ openReturn r'.ast.nodes = false :=
  Outcome.run₂ (by decide +kernel)

/-- **C50, for programs of the grammar.** -/
theorem chosen_accepted (hc : c.Reachable) (hl : lexAll c source = .ok rs) (he : errorsOf rs = [])
    (ht : tokensOf rs = ast.nodes.flat ++ [ast.eof]) (hg : Conforms c (.cat .block) ast.nodes)
    (hp : c.has .luau = true → ast.nodes.Every Chosen) : parse c source = .ok (.ok ast) :=
  chosen_accepted_dropping hc hl he (dropped := []) (by simpa using ht) hg hp (.inl rfl)

/-- **C50, without ambiguity.**  Of the trees of the grammar with the tokens of a source, at most one is the reading that
is meant. -/
theorem chosen_unambiguous (hc : c.Reachable) (hl : lexAll c source = .ok rs)
    (he : errorsOf rs = []) {a b : Ast} (ha : tokensOf rs = a.nodes.flat ++ [a.eof]) (hb : tokensOf rs = b.nodes.flat ++ [b.eof])
    (hga : Conforms c (.cat .block) a.nodes) (hgb : Conforms c (.cat .block) b.nodes)
    (hpa : c.has .luau = true → a.nodes.Every Chosen) (hpb : c.has .luau = true → b.nodes.Every Chosen) : a = b := by
  have h1 := chosen_accepted hc hl he ha hga hpa
  rw [chosen_accepted hc hl he hb hgb hpb] at h1
  cases h1
  rfl

/-- **C44.**  Without Luau, a source without tokenizer errors whose tokens are those of a tree of the grammar of the
active version, followed by at most one superfluous last statement, is accepted, and the result is that tree. -/
theorem grammar_accepted_dropping (hc : c.Reachable) (hlu : c.has .luau = false) (hl : lexAll c source = .ok rs)
    (he : errorsOf rs = []) {dropped : List TokRef} (ht : tokensOf rs = ast.nodes.flat ++ (dropped ++ [ast.eof]))
    (hg : Conforms c (.cat .block) ast.nodes) (hd : dropped = [] ∨ HasLast ast.nodes ∧ LastStatement c dropped) :
    parse c source = .ok (.ok ast) := by
  have hno : c.has .luau = true → False := fun h => by rw [hlu] at h; cases h
  refine chosen_accepted_dropping hc hl he ht hg (fun h => (hno h).elim) (hd.imp_right fun ⟨h1, n, h2, h3⟩ => ⟨h1, ?_⟩)
  have hen : ∀ t ∈ n.flat, ∀ s, t.token.type = .symbol s → Enabled c s := fun t hm s hs =>
    symbols_enabled hc hl (x := t.token) (List.mem_flatMap.2 ⟨t, by rw [ht]; simp [← h3, hm], by simp [TokRef.flat]⟩) hs
  obtain ⟨s, h4, h5⟩ := view_semi (fits_of h2 hen fun h => (hno h).elim)
  have h6 : ∃ m q, n = .node .tuple [m, q] := ⟨_, _, h4⟩
  obtain ⟨m, q, rfl⟩ := h6
  refine ⟨m, q, h2, h3, fun hk => ?_, fun h => (hno h).elim⟩
  unfold stmtNode at h4
  injection h4 with _ h4
  injection h4 with h4 _
  subst h4
  have := view_last h5.1
  revert this hk
  generalize s.1 = m
  intro hk this
  cases this with
  | continue_ h => exact (hno h).elim
  | break_ => cases hk
  | return_ => cases hk

/-- **C44, for programs of the grammar.**  A source without tokenizer errors whose tokens are those of a tree of the
grammar of the active version is accepted, and the result is that tree. -/
theorem grammar_accepted (hc : c.Reachable) (hlu : c.has .luau = false) (hl : lexAll c source = .ok rs)
    (he : errorsOf rs = []) (ht : tokensOf rs = ast.nodes.flat ++ [ast.eof]) (hg : Conforms c (.cat .block) ast.nodes) :
    parse c source = .ok (.ok ast) :=
  grammar_accepted_dropping hc hlu hl he (dropped := []) (by simpa using ht) hg (.inl rfl)

/-- **C44, both directions.**  Without Luau, the accepted sources are those without tokenizer errors whose tokens are
those of a tree of the grammar, followed by at most one superfluous last statement. -/
theorem accepted_iff (hc : c.Reachable) (hlu : c.has .luau = false) (hl : lexAll c source = .ok rs) :
    parse c source = .ok (.ok ast) ↔ errorsOf rs = [] ∧ Conforms c (.cat .block) ast.nodes ∧
      ∃ dropped, tokensOf rs = ast.nodes.flat ++ (dropped ++ [ast.eof]) ∧
        (dropped = [] ∨ HasLast ast.nodes ∧ LastStatement c dropped) := by
  constructor
  · intro h
    exact ⟨parse_ok_no_tokenizer_error hc hl h, parse_grammar hc hlu h, parse_tokens_partial hc hlu hl h⟩
  · rintro ⟨h1, h2, d, h3, h4⟩
    exact grammar_accepted_dropping hc hlu hl h1 h3 h2 h4

/-- **C44, without ambiguity.**  Two trees of the grammar with the tokens of a source are equal. -/
theorem grammar_unambiguous (hc : c.Reachable) (hlu : c.has .luau = false) (hl : lexAll c source = .ok rs)
    (he : errorsOf rs = []) {a b : Ast} (ha : tokensOf rs = a.nodes.flat ++ [a.eof]) (hb : tokensOf rs = b.nodes.flat ++ [b.eof])
    (hga : Conforms c (.cat .block) a.nodes) (hgb : Conforms c (.cat .block) b.nodes) : a = b := by
  have h1 := grammar_accepted hc hlu hl he ha hga
  rw [grammar_accepted hc hlu hl he hb hgb] at h1
  cases h1
  rfl

/-- A program that meets the conditions. -/
example : ∃ rs, ∃ ast : Ast, lexAll cfg51 c!"local a, b = f{1, x=2}:g 'y' while not a do b = a.c[1] ^ -2 .. c end return a -- c" = .ok rs ∧
    errorsOf rs = [] ∧ tokensOf rs = ast.nodes.flat ++ [ast.eof] ∧ Conforms cfg51 (.cat .block) ast.nodes ∧ 30 < (tokensOf rs).length := by
  have : ∃ rs r, lexAll cfg51 c!"local a, b = f{1, x=2}:g 'y' while not a do b = a.c[1] ^ -2 .. c end return a -- c" = .ok rs ∧
      parseFallible cfg51 c!"local a, b = f{1, x=2}:g 'y' while not a do b = a.c[1] ^ -2 .. c end return a -- c" = .ok r ∧
      r.errors.isEmpty = true ∧ tokensOf rs = r.ast.nodes.flat ++ [r.ast.eof] ∧ 30 < (tokensOf rs).length :=
    Outcome.run₂ (by decide +kernel)
  obtain ⟨rs, r, h1, h2, h3, h4, h5⟩ := this
  have h : parse cfg51 _ = .ok (.ok r.ast) := parse_ok_iff.2 ⟨r, h2, List.isEmpty_iff.1 h3, rfl⟩
  exact ⟨rs, r.ast, h1, parse_ok_no_tokenizer_error cfg51_reachable h1 h, h4, parse_grammar cfg51_reachable rfl h, h5⟩

/-- A program of Luau that meets the conditions. -/
example : ∃ rs, ∃ ast : Ast, lexAll cfgLuau c!"export type M<T, P...> = {[string]: T | (n: number, P...) -> T?} local x: number, y = f<<T>>(`a{b}c`) :: (T) < 1, if a then b else c :: any for i: T = 1, 2 do x += 1 continue end" = .ok rs ∧
    errorsOf rs = [] ∧ tokensOf rs = ast.nodes.flat ++ [ast.eof] ∧ Conforms cfgLuau (.cat .block) ast.nodes ∧
    ast.nodes.Every Chosen ∧ 70 < (tokensOf rs).length := by
  have : ∃ rs r, lexAll cfgLuau c!"export type M<T, P...> = {[string]: T | (n: number, P...) -> T?} local x: number, y = f<<T>>(`a{b}c`) :: (T) < 1, if a then b else c :: any for i: T = 1, 2 do x += 1 continue end" = .ok rs ∧
      parseFallible cfgLuau c!"export type M<T, P...> = {[string]: T | (n: number, P...) -> T?} local x: number, y = f<<T>>(`a{b}c`) :: (T) < 1, if a then b else c :: any for i: T = 1, 2 do x += 1 continue end" = .ok r ∧
      (errorsOf rs).isEmpty = true ∧ tokensOf rs = r.ast.nodes.flat ++ [r.ast.eof] ∧ conforms cfgLuau (.cat .block) r.ast.nodes = true ∧
      chosen r.ast.nodes = true ∧ 70 < (tokensOf rs).length :=
    Outcome.run₂ (by decide +kernel)
  obtain ⟨rs, r, h1, h2, h3, h4, h5, h6, h7⟩ := this
  exact ⟨rs, r.ast, h1, List.isEmpty_iff.1 h3, h4, conforms_sound _ _ h5, chosen_sound _ h6, h7⟩

end FM.Props
