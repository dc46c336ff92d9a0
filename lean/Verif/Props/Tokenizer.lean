import Verif.Proofs.StreamFacts

/-!
# Properties of the tokenizer: C01–C07, C09, C10, C12–C15

`lexAll c source` is everything the tokenizer produces for a source, in order (C08 relates it to the
streaming interface).  `c` is any compiled feature set with any version set that the API can build.
-/

namespace FM.Props
open FM FM.Spec

/-- Every compiled feature, default version plus CfxLua: used by the examples. -/
def allCfg : Cfg := ⟨⟨true, true, true, true, true, true⟩, LuaVersion.default.withVer .cfxlua⟩

/-- Plain Lua 5.1, nothing compiled in. -/
def cfg51 : Cfg := ⟨⟨false, false, false, false, false, false⟩, .lua51⟩

/-- Luau only. -/
def cfgLuau : Cfg := ⟨⟨true, false, false, false, false, false⟩, .only .luau⟩

theorem allCfg_reachable : allCfg.Reachable := ⟨by decide, .withVer .cfxlua rfl .default⟩
theorem cfg51_reachable : cfg51.Reachable := ⟨by decide, .lua51⟩
theorem cfgLuau_reachable : cfgLuau.Reachable := ⟨by decide, .only .luau rfl⟩

/-! ## C01 -/

/-- **C01.** When tokenizing reports no error (and a `#!` line, if any, was kept), printing all token
references in order gives back the source. -/
theorem tokenize_lossless {c : Cfg} (hc : c.Reachable) {source : Text} {rs : List (LexRes TokRef)}
    (h : lexAll c source = .ok rs) (he : errorsOf rs = []) (hs : ShebangKept source rs) :
    (tokensOf rs).flatMap TokRef.display = source := by
  obtain ⟨pre, l, hat, hrun, _, hk⟩ := lexAll_run hc.good h
  obtain ⟨rfl, _⟩ := hk hs
  rw [← (hrun.noErr hat he).1]
  exact hat.1.symm

/-- Non-vacuity: a source with comments, a long string, operators and a `#!` line. -/
example : ∃ rs, lexAll cfg51 c!"#!lua\nx = [=[ a ]=] -- c\n" = .ok rs ∧ errorsOf rs = [] ∧
    ShebangKept c!"#!lua\nx = [=[ a ]=] -- c\n" rs ∧ 3 < rs.length := by
  refine ⟨_, rfl, by decide, fun _ => ⟨_, _, _, _, rfl, rfl, rfl, _, rfl⟩, by decide⟩

/-- Without a `#!` line the side condition is void. -/
theorem shebangKept_of_no_shebang {source : Text} (h : ¬ HasShebang source) (rs : List (LexRes TokRef)) :
    ShebangKept source rs := fun h' => absurd h' h

/-- Finding: with a `#!` line the statement is false.  The first token after the line is erroneous, and the
line, the token and its error are all dropped: no error is reported and nothing is printed. -/
theorem tokenize_not_lossless_after_shebang :
    ∃ rs, lexAll cfg51 c!"#!x\n0x" = .ok rs ∧ errorsOf rs = [] ∧
      (tokensOf rs).flatMap TokRef.display ≠ c!"#!x\n0x" := by
  refine ⟨_, rfl, by decide, by decide⟩

/-! ## C02, C03 -/

/-- **C02.** Every token reference returned without an error prints as a slice of the source, wherever it
stands and whatever precedes it; inside it, every token prints as its own slice. -/
theorem ok_token_is_slice {c : Cfg} (hc : c.Reachable) {source : Text} {rs : List (LexRes TokRef)}
    (h : lexAll c source = .ok rs) {t : TokRef} (ht : .ok t ∈ rs) :
    ∃ before after, source = before ++ t.display ++ after ∧ Placed c before t.flat after := by
  obtain ⟨pre, l, hat, hrun, _, _⟩ := lexAll_run hc.good h
  obtain ⟨before, w, l0, l1, ⟨hr, _, _, hw, hp, _⟩, h0, h1⟩ := hrun.mem hat ht
  exact ⟨before, l1.src.rest, by rw [← hw]; exact h1.1, hp⟩

/-- **C02, erroneous sources.** Every token (trivia included) of every token reference, recovered ones
included, is a slice of the source unless it is itself an unfinished string, comment or number. -/
theorem every_token_is_slice {c : Cfg} (hc : c.Reachable) {source : Text} {rs : List (LexRes TokRef)}
    (h : lexAll c source = .ok rs) {x : Token} (hx : x ∈ flatTokens rs) : TokenIn c source x := by
  obtain ⟨pre, l, hat, hrun, _, _⟩ := lexAll_run hc.good h
  simp only [flatTokens, List.mem_flatMap] at hx
  obtain ⟨t, ht, hx⟩ := hx
  rcases mem_tokensOf.1 ht with ht | ⟨es, ht⟩
  · obtain ⟨before, w, l0, l1, ⟨hr, _, _, hw, hp, _⟩, h0, h1⟩ := hrun.mem hat ht
    refine placed_tokenIn hp ?_ x hx
    rw [h1.1, hw]
    simp [text, TokRef.flat, TokRef.display]
  · obtain ⟨before, w, l0, l1, ⟨hr, _, _, _, _, _, _, hp, _⟩, h0, h1⟩ := hrun.mem hat ht
    exact hp x hx

/-- **C02, one call.** From any state of the tokenizer: a token read without an error prints as exactly
the characters the call consumed. -/
theorem step_prints_consumed {c : Cfg} (hc : c.Reachable) {l l' : Lx} {t : Token}
    (h : processNext c l = .ok (some (.ok t), l')) : l.src.rest = t.display ++ l'.src.rest := by
  cases h0 : l.src.rest with
  | nil =>
    rw [processNext_nil h0] at h
    split at h
    · simp at h
    · simp only [Outcome.ok.injEq, Prod.mk.injEq, Option.some.injEq, LexRes.ok.injEq] at h
      rw [← h.1, ← h.2]
      simp [Token.display, TokenType.display, h0]
  | cons ch r =>
    obtain ⟨res, hres, ⟨w, _, hr, hg⟩, _⟩ := processNext_cons hc.good h0 h
    simp only [Option.some.injEq] at hres
    subst hres
    obtain ⟨_, _, hd, _⟩ := hg
    rw [hd, ← h0]
    exact hr.1

/-- Non-vacuity: garbage before a good token. -/
example : ∃ rs t, lexAll cfg51 c!"$ 0x  foo" = .ok rs ∧ .ok t ∈ rs ∧ t.token.type = .identifier c!"foo" ∧
    errorsOf rs ≠ [] := by
  refine ⟨_, _, rfl, List.mem_cons_of_mem _ (List.mem_cons_of_mem _ (List.mem_cons_self)), rfl, by decide⟩

/-- **C03.** Positions of a token in any source: `start` counts bytes, lines and characters of the text
before it; `stop` is the position after it, except that a token ending in a newline ends on its own line. -/
theorem token_positions {c : Cfg} (hc : c.Reachable) {source : Text} {rs : List (LexRes TokRef)}
    (h : lexAll c source = .ok rs) {t : TokRef} (ht : .ok t ∈ rs) {x : Token} {a b : List Token}
    (hx : t.flat = a ++ x :: b) :
    ∃ before after, source = before ++ x.display ++ after ∧ x.start = position before ∧
      x.stop = endPosition before x.display ∧ x.stop.bytes = utf8Len (before ++ x.display) := by
  obtain ⟨before, after, h1, h2⟩ := ok_token_is_slice hc h ht
  rw [hx, placed_append] at h2
  obtain ⟨_, h3, h4, h5, h6⟩ := h2
  refine ⟨before ++ text a, text b ++ after, ?_, h3, h4, ?_⟩
  · have : t.display = text (a ++ x :: b) := by rw [← hx]; simp [text, TokRef.flat, TokRef.display]
    rw [h1, this, text_append, text_cons]
    simp
  · rw [h4]
    unfold endPosition
    split <;> rfl

/-- Start positions are exact for erroneous tokens too. -/
theorem token_start_positions {c : Cfg} (hc : c.Reachable) {source : Text} {rs : List (LexRes TokRef)}
    (h : lexAll c source = .ok rs) {x : Token} (hx : x ∈ flatTokens rs) :
    ∃ before after, source = before ++ after ∧ x.start = position before := by
  obtain ⟨before, after, h1, h2, _⟩ := every_token_is_slice hc h hx
  exact ⟨before, after, h1, h2⟩

/-- Non-vacuity: a multi-byte character before the token. -/
example : ∃ rs t, lexAll cfg51 c!"-- é\nx" = .ok rs ∧ .ok t ∈ rs ∧ t.token.start = ⟨6, 2, 1⟩ := by
  refine ⟨_, _, rfl, List.mem_cons_self, rfl⟩

/-! ## C04 -/

/-- In a placed list, neighbours touch. -/
theorem placed_adjacent {c : Cfg} {before after : Text} {ts a b : List Token} {x y : Token}
    (h : Placed c before ts after) (hts : ts = a ++ x :: y :: b) :
    x.stop.bytes = y.start.bytes ∧ (x.display.getLast? ≠ some '\n' → x.stop = y.start) := by
  subst hts
  rw [placed_append] at h
  obtain ⟨_, h1, h2, _, h3, _⟩ := h
  rw [h2, h3]
  constructor
  · unfold endPosition
    split <;> rfl
  · intro hn
    simp [endPosition, hn]

theorem placed_last {c : Cfg} {before : Text} {ts a : List Token} {x : Token}
    (h : Placed c before ts []) (hts : ts = a ++ [x]) :
    x.stop.bytes = utf8Len (before ++ text ts) := by
  subst hts
  rw [placed_append] at h
  obtain ⟨_, _, h2, _⟩ := h
  rw [h2, text_append]
  have : text [x] = x.display := by simp [text]
  rw [this, ← List.append_assoc]
  unfold endPosition
  split <;> rfl

/-- **C04.** In an error-free source the tokens (trivia included) are contiguous: the first starts at byte 0,
each starts at the byte where the previous one ends, the last ends at the length of the source. -/
theorem tokens_tile {c : Cfg} (hc : c.Reachable) {source : Text} {rs : List (LexRes TokRef)}
    (h : lexAll c source = .ok rs) (he : errorsOf rs = []) (hs : ShebangKept source rs) :
    (∀ x, (flatTokens rs).head? = some x → x.start = ⟨0, 1, 1⟩) ∧
    (∀ a b x y, flatTokens rs = a ++ x :: y :: b →
      x.stop.bytes = y.start.bytes ∧ (x.display.getLast? ≠ some '\n' → x.stop = y.start)) ∧
    (∀ x, (flatTokens rs).getLast? = some x → x.stop.bytes = utf8Len source) := by
  obtain ⟨pre, l, hat, hrun, _, hk⟩ := lexAll_run hc.good h
  obtain ⟨rfl, _⟩ := hk hs
  obtain ⟨h1, h2⟩ := hrun.noErr hat he
  refine ⟨?_, fun a b x y hts => placed_adjacent h2 hts, ?_⟩
  · intro x hx
    cases hf : flatTokens rs with
    | nil => rw [hf] at hx; simp at hx
    | cons y ys =>
      rw [hf] at hx h2
      simp at hx
      subst hx
      rw [h2.1]
      simp [position, utf8Len]
  · intro x hx
    obtain ⟨a, ha⟩ := List.getLast?_eq_some_iff.1 hx
    rw [placed_last h2 ha]
    have : text (flatTokens rs) = source := by
      rw [hat.1, h1]
      simp only [flatTokens, text, List.flatMap_assoc, List.nil_append]
      congr 1
      funext t
      simp [TokRef.flat, TokRef.display]
    rw [this]
    rfl

/-! ## C05 -/

/-- **C05.** The stream of any source (without a lost `#!` line) has exactly one Eof token; it is the last
result, it is not fatal and has no trailing trivia. -/
theorem eof_once_last {c : Cfg} (hc : c.Reachable) {source : Text} {rs : List (LexRes TokRef)}
    (h : lexAll c source = .ok rs) (hs : ShebangKept source rs) :
    ∃ init t, tokensOf rs = init ++ [t] ∧ t.token.type = .eof ∧ t.trailing = [] ∧
      (∀ u ∈ init, u.token.type ≠ .eof) ∧
      ∃ r, rs.getLast? = some r ∧ (r = .ok t ∨ ∃ es, r = .recovered t es) := by
  obtain ⟨pre, l, hat, hrun, _, hk⟩ := lexAll_run hc.good h
  obtain ⟨_, hse⟩ := hk hs
  exact hrun.eof hse

/-- Finding: after a `#!` line followed by an unclosed comment the stream is empty, without any Eof. -/
theorem no_eof_after_shebang : lexAll cfg51 c!"#!x\n--[[" = .ok [] := by decide

/-! ## C06, C07 -/

/-- **C06.** Tokenizing terminates for every source (the fuel of the model is never exhausted) … -/
theorem tokenize_terminates {c : Cfg} (hc : c.Reachable) (source : Text) : lexAll c source ≠ .diverge := by
  rcases lexAll_spec hc.good (src := source) with ⟨h, _⟩ | ⟨rs, h, _⟩ <;> rw [h] <;> simp

/-- … with at most one result per character, plus one … -/
theorem tokenize_length {c : Cfg} (hc : c.Reachable) {source : Text} {rs : List (LexRes TokRef)}
    (h : lexAll c source = .ok rs) : rs.length ≤ source.length + 1 := by
  obtain ⟨_, _, _, _, h, _⟩ := lexAll_run hc.good h
  exact h

/-- … and every single call, from any state, consumes at least one character or is at the end. -/
theorem step_consumes {c : Cfg} (hc : c.Reachable) {l l' : Lx} {o : Option (LexRes Token)}
    (h : processNext c l = .ok (o, l')) (hne : l.src.rest ≠ []) :
    ∃ w, w ≠ [] ∧ l.src.rest = w ++ l'.src.rest := by
  cases h0 : l.src.rest with
  | nil => exact absurd h0 hne
  | cons ch r =>
    obtain ⟨res, _, ⟨w, hw, hr, _⟩, _⟩ := processNext_cons hc.good h0 h
    exact ⟨w, hw, by rw [← h0]; exact hr.1⟩

/-- **C07, partial.** Tokenizing never panics, unless the source has a backtick while Luau is not active and
CfxLua is not compiled in.  Missing: those sources, where the code does panic (next theorem). -/
theorem tokenize_no_panic_partial {c : Cfg} (hc : c.Reachable) {source : Text} (hb : BackticksOk c source) :
    ∃ rs, lexAll c source = .ok rs := by
  rcases lexAll_spec hc.good (src := source) with ⟨_, h⟩ | ⟨rs, h, _⟩
  · exact absurd hb h
  · exact ⟨rs, h⟩

/-- Finding: a backtick makes the tokenizer panic in Lua 5.1. -/
theorem tokenize_panics_on_backtick : lexAll cfg51 c!"x = `a`" = .panic := by decide

/-- The exact panic condition of one call: the next character is a backtick, Luau is not active and CfxLua
is not compiled in. -/
theorem step_panics_iff {c : Cfg} {l : Lx} :
    processNext c l = .panic ↔ l.src.rest.head? = some '`' ∧ c.has .luau = false ∧ c.feat.cfxlua = false :=
  processNext_panic

example : BackticksOk allCfg c!"x = `a`" := .inl (by decide)
example : BackticksOk cfg51 c!"x = 'a'" := .inr (.inr (by decide))

/-! ## C09 -/

/-- **C09.** Trivia lists contain only trivia; the token itself never is trivia; in the trailing trivia only
the last token can be a whitespace token that contains a newline. -/
theorem trivia_attachment {c : Cfg} (hc : c.Reachable) {source : Text} {rs : List (LexRes TokRef)}
    (h : lexAll c source = .ok rs) {t : TokRef} (ht : t ∈ tokensOf rs) :
    (∀ x ∈ t.leading, x.type.isTrivia = true) ∧ (∀ x ∈ t.trailing, x.type.isTrivia = true) ∧
    t.token.type.isTrivia = false ∧
    (∀ a x b s, t.trailing = a ++ x :: b → x.type = .whitespace s → '\n' ∈ s → b = []) := by
  obtain ⟨pre, l, hat, hrun, _, _⟩ := lexAll_run hc.good h
  have key : t.token.type.isTrivia = false ∧ (∀ x ∈ t.leading ++ t.trailing, x.type.isTrivia = true) ∧
      (∀ x ∈ t.trailing.dropLast, x.type.endsLine = false) := by
    rcases mem_tokensOf.1 ht with ht | ⟨es, ht⟩
    · obtain ⟨before, w, l0, l1, ⟨hr, _, _, _, _, h1, h2, h3, _⟩, _⟩ := hrun.mem hat ht
      exact ⟨h1, h2, h3⟩
    · obtain ⟨before, w, l0, l1, ⟨hr, _, _, _, _, h1, h2, _, h3, _⟩, _⟩ := hrun.mem hat ht
      exact ⟨h1, h2, h3⟩
  obtain ⟨h1, h2, h3⟩ := key
  refine ⟨fun x hx => h2 x (List.mem_append_left _ hx), fun x hx => h2 x (List.mem_append_right _ hx), h1, ?_⟩
  intro a x b s hts hx hn
  cases b with
  | nil => rfl
  | cons y b =>
    exfalso
    have hmem : x ∈ t.trailing.dropLast := by
      rw [hts, List.dropLast_append_of_ne_nil (by simp), List.dropLast_cons_cons]
      simp
    have := h3 x hmem
    rw [hx] at this
    simp [TokenType.endsLine] at this
    exact this hn

/-- Non-vacuity: trailing trivia up to the newline, the next line's comment is leading trivia. -/
example : ∃ rs t u, lexAll cfg51 c!"a -- b\n-- c\nd" = .ok rs ∧ tokensOf rs = [t, u, ⟨[], ⟨⟨13, 3, 2⟩, ⟨13, 3, 2⟩, .eof⟩, []⟩] ∧
    t.trailing.length = 3 ∧ u.leading.length = 2 := by
  refine ⟨_, _, _, rfl, rfl, by decide, by decide⟩

/-! ## C10 -/

/-- Texts of error-free tokens that are words. -/
theorem typeWf_word {c : Cfg} {ty : TokenType} {rest : Text} (h : TypeWf c ty rest) (hw : IsWord ty.display) :
    startsWith isWordChar rest = false ∧
    ((∃ y, ty = .symbol y ∧ Reserved c ty.display) ∨
     (ty = .identifier ty.display ∧ ¬ Reserved c ty.display)) := by
  have first : ∀ {ch : Char} {w : Text}, ty.display = ch :: w → isWordChar ch = true := by
    intro ch w he; rw [he] at hw; exact hw.1
  cases ty with
  | eof => exact hw.elim
  | identifier w => exact ⟨h.2.2, .inr ⟨rfl, h.2.1⟩⟩
  | symbol y => exact ⟨(h.2 hw).2, .inl ⟨y, rfl, (h.2 hw).1⟩⟩
  | shebang t =>
    exfalso
    match t, h.1 with
    | a :: b :: r, h' =>
      simp at h'
      have := first (ch := a) rfl
      rw [h'.1] at this
      revert this; decide
    | [a], h' => simp at h'
    | [], h' => simp at h'
  | number t =>
    exfalso
    have h1 := h.1
    cases t with
    | nil => simp [startsWith] at h1
    | cons ch r =>
      have h2 := first (ch := ch) rfl
      have h3 := hw.2.1
      simp only [startsWith, Bool.or_eq_true, beq_iff_eq, Bool.and_eq_true, decide_eq_true_eq] at h1
      rcases h1 with rfl | h1
      · revert h2; decide
      · exact h3 h1
  | multiLineComment n b => exact absurd (first (ch := '-') rfl) (by decide)
  | singleLineComment b => exact absurd (first (ch := '-') rfl) (by decide)
  | cStyleComment b => exact absurd (first (ch := '/') rfl) (by decide)
  | whitespace t =>
    exfalso
    cases t with
    | nil => exact h.1 rfl
    | cons ch r =>
      have h2 := first (ch := ch) rfl
      rcases h.2.1 ch (by simp) with rfl | rfl | rfl | rfl <;> revert h2 <;> decide
  | stringLiteral b n q =>
    exfalso
    cases q
    · exact absurd (first (ch := '[') rfl) (by decide)
    · exact absurd (first (ch := '"') rfl) (by decide)
    · exact absurd (first (ch := '\'') rfl) (by decide)
    · exact absurd (first (ch := '`') rfl) (by decide)
  | interpolated b k =>
    exfalso
    cases k
    · exact absurd (first (ch := '`') rfl) (by decide)
    · exact absurd (first (ch := '}') rfl) (by decide)
    · exact absurd (first (ch := '}') rfl) (by decide)
    · exact absurd (first (ch := '`') rfl) (by decide)

theorem wf_of_mem {c : Cfg} (hc : c.Reachable) {source : Text} {rs : List (LexRes TokRef)}
    (h : lexAll c source = .ok rs) {x : Token} (hx : x ∈ flatTokens rs) (hr : canRecover x.type = false) :
    ∃ before rest, source = before ++ x.display ++ rest ∧ TypeWf c x.type rest := by
  obtain ⟨before, after, h1, h2, h3⟩ := every_token_is_slice hc h hx
  rcases h3 with h3 | ⟨rest, h3, _, h4⟩
  · rw [hr] at h3; simp at h3
  · exact ⟨before, rest, by rw [h1, h3, List.append_assoc], h4⟩

/-- **C10, from the token.** Symbols and identifiers of any source: an identifier is a word that is not
reserved; a symbol whose text is a word is a reserved word; both end where the word ends in the source. -/
theorem words_are_keywords_or_identifiers {c : Cfg} (hc : c.Reachable) {source : Text}
    {rs : List (LexRes TokRef)} (h : lexAll c source = .ok rs) {x : Token} (hx : x ∈ flatTokens rs) :
    (∀ w, x.type = .identifier w → IsWord w ∧ ¬ Reserved c w) ∧
    (∀ y, x.type = .symbol y → IsWord y.text → Reserved c y.text) ∧
    ((∃ w, x.type = .identifier w) ∨ (∃ y, x.type = .symbol y ∧ IsWord y.text) →
      ∃ before rest, source = before ++ x.display ++ rest ∧ startsWith isWordChar rest = false) := by
  refine ⟨?_, ?_, ?_⟩
  · intro w hw
    obtain ⟨_, _, _, h⟩ := wf_of_mem hc h hx (by rw [hw]; rfl)
    rw [hw] at h
    exact ⟨h.1, h.2.1⟩
  · intro y hy hw
    obtain ⟨_, _, _, h⟩ := wf_of_mem hc h hx (by rw [hy]; rfl)
    rw [hy] at h
    exact (h.2 hw).1
  · rintro (⟨w, hw⟩ | ⟨y, hy, hw⟩)
    · obtain ⟨before, rest, h1, h⟩ := wf_of_mem hc h hx (by rw [hw]; rfl)
      rw [hw] at h
      exact ⟨before, rest, h1, h.2.2⟩
    · obtain ⟨before, rest, h1, h⟩ := wf_of_mem hc h hx (by rw [hy]; rfl)
      rw [hy] at h
      exact ⟨before, rest, h1, (h.2 hw).2⟩

/-- **C10, from the source.** Wherever a token starts with a word, from any tokenizer state: if `w` is the
maximal word there, the token is `w`, as a keyword when `w` is reserved and as an identifier otherwise. -/
theorem word_token {c : Cfg} (hc : c.Reachable) {l : Lx} {w rest : Text} (hsrc : l.src.rest = w ++ rest)
    (hw : IsWord w) (hrest : startsWith isWordChar rest = false) :
    ∃ ty stop l', processNext c l = .ok (some (.ok ⟨l.src.pos, stop, ty⟩), l') ∧ l'.src.rest = rest ∧
      ((Reserved c w ∧ ∃ y, ty = .symbol y ∧ y.text = w) ∨ (¬ Reserved c w ∧ ty = .identifier w)) := by
  cases w with
  | nil => exact hw.elim
  | cons ch w =>
    have hq : ¬ (ch = '"' ∨ ch = '\'' ∨ ch = '`') := by
      rintro (rfl | rfl | rfl) <;> exact absurd hw.1 (by decide)
    have hl : ch ≠ '{' := by rintro rfl; exact absurd hw.1 (by decide)
    have hr : ch ≠ '}' := by rintro rfl; exact absurd hw.1 (by decide)
    have hs : isIdentStart ch = true := by
      have h1 := hw.1
      rw [← isWordChar_iff, Bool.or_eq_true] at h1
      rcases h1 with h1 | h1
      · exact h1
      · exact absurd (by simpa [isDigit] using h1) hw.2.1
    have hpn : ∃ o, processNext c l = .ok o := by
      unfold processNext
      simp [hsrc, hq, hl, hr]
    obtain ⟨⟨o, l'⟩, hpn⟩ := hpn
    obtain ⟨res, rfl, ⟨v, hv, hrd, hg⟩, _⟩ := processNext_cons hc.good (ch := ch) (r := w ++ rest) (by simpa using hsrc) hpn
    have hform : ∃ v', readIdent c l.src.pos ch ⟨w ++ rest, l.src.pos.advance ch⟩ = (res, l'.src) ∧
        (∃ t, res = .ok t ∧ (t.type = .identifier v' ∨ ∃ y, t.type = .symbol y ∧ y.text = v')) := by
      unfold processNext at hpn
      simp only [hsrc, List.cons_append, hq, hl, hr, if_false, readPlain, hs, if_true, Lx.finish,
        Outcome.ok.injEq, Prod.mk.injEq, Option.some.injEq] at hpn
      refine ⟨(identLoop (w ++ rest) (l.src.pos.advance ch) [ch]).1, ?_, ?_⟩
      · rw [← hpn.2, ← hpn.1]
      · rw [← hpn.1]
        unfold readIdent
        refine ⟨_, rfl, ?_⟩
        simp only
        split
        · rename_i y hy
          exact .inr ⟨y, rfl, (Symbol.fromStr_some hy).1⟩
        · exact .inl rfl
    obtain ⟨v', _, t, rfl, ht⟩ := hform
    simp only at hg
    obtain ⟨g1, g2, g3, g4, g5⟩ := hg
    have hdv : t.display = v' := by
      rcases ht with ht | ⟨y, ht, hy⟩
      · simp [Token.display, ht, TokenType.display]
      · simp [Token.display, ht, TokenType.display, hy]
    have hvv : v = v' := by rw [← g3, hdv]
    subst hvv
    -- the token read is a word that ends where no word character follows
    have hwv : IsWord v := by
      rcases ht with ht | ⟨y, ht, hy⟩
      · rw [ht] at g5; exact g5.1
      · cases v with
        | nil => exact absurd rfl hv
        | cons x v =>
          have h1 := hrd.1
          rw [hsrc] at h1
          simp only [List.cons_append, List.cons.injEq] at h1
          obtain ⟨rfl, h1⟩ := h1
          by_cases hx : ∀ z ∈ v, isWordChar z = true
          · exact ⟨hw.1, hw.2.1, hx⟩
          · exfalso
            rw [ht] at g5
            -- a symbol starting with an identifier character is a word
            have : ∀ y : Symbol, startsWith isIdentStart y.text = true → IsWord y.text := by
              intro y
              cases y <;> simp [Symbol.text, startsWith, IsWord, isWordChar, isIdentStart] <;> decide
            have h2 := this y (by rw [hy]; exact hs)
            rw [hy] at h2
            exact hx h2.2.2
    have hend : startsWith isWordChar l'.src.rest = false := by
      rcases ht with ht | ⟨y, ht, hy⟩
      · rw [ht] at g5; exact g5.2.2
      · rw [ht] at g5; exact (g5.2 (by rw [hy]; exact hwv)).2
    have heq : v = ch :: w ∧ l'.src.rest = rest := by
      have h1 := hrd.1
      rw [hsrc] at h1
      have key : ∀ (a b x y : Text), (∀ z ∈ a, isWordChar z = true) → (∀ z ∈ b, isWordChar z = true) →
          startsWith isWordChar x = false → startsWith isWordChar y = false → a ++ x = b ++ y → a = b ∧ x = y := by
        intro a
        induction a with
        | nil =>
          intro b x y _ hb hx hy he
          cases b with
          | nil => exact ⟨rfl, he⟩
          | cons z b =>
            simp only [List.nil_append, List.cons_append] at he
            subst he
            simp [startsWith, hb z (by simp)] at hx
        | cons p a ih =>
          intro b x y ha hb hx hy he
          cases b with
          | nil =>
            simp only [List.nil_append, List.cons_append] at he
            subst he
            simp [startsWith, ha p (by simp)] at hy
          | cons z b =>
            simp only [List.cons_append, List.cons.injEq] at he
            obtain ⟨rfl, he⟩ := he
            obtain ⟨rfl, rfl⟩ := ih b x y (fun z hz => ha z (by simp [hz])) (fun z hz => hb z (by simp [hz])) hx hy he
            exact ⟨rfl, rfl⟩
      obtain ⟨h2, h3⟩ := key (ch :: w) v rest l'.src.rest (isWord_all hw) (isWord_all hwv) hrest hend h1
      exact ⟨h2.symm, h3.symm⟩
    refine ⟨t.type, t.stop, l', ?_, heq.2, ?_⟩
    · rw [hpn]
      congr 4
      cases t
      simp only at g1
      rw [g1]
    · rw [heq.1] at ht
      rcases ht with ht | ⟨y, ht, hy⟩
      · rw [ht] at g5
        exact .inr ⟨g5.2.1, ht⟩
      · rw [ht] at g5
        exact .inl ⟨hy ▸ (g5.2 (by rw [hy]; exact hw)).1, y, ht, hy⟩

/-- Non-vacuity and the `goto` case: an identifier in Lua 5.1, a keyword when Lua 5.2 is active. -/
example : ∃ l', processNext cfg51 (Lx.new c!"goto x") = .ok (some (.ok ⟨⟨0, 1, 1⟩, ⟨4, 1, 5⟩, .identifier c!"goto"⟩), l') :=
  ⟨_, rfl⟩
example : ∃ l', processNext allCfg (Lx.new c!"goto x") = .ok (some (.ok ⟨⟨0, 1, 1⟩, ⟨4, 1, 5⟩, .symbol .kGoto⟩), l') :=
  ⟨_, rfl⟩
example : Reserved allCfg c!"goto" ∧ ¬ Reserved cfg51 c!"goto" ∧ IsWord c!"goto" := by
  refine ⟨.inr ⟨rfl, .inl (by decide)⟩, ?_, ?_⟩
  · rintro (h | ⟨_, h | h⟩) <;> revert h <;> decide
  · exact ⟨by decide, by decide, by decide⟩

/-! ## C12 -/

/-- **C12.** A symbol token is only produced in versions that have the symbol. -/
theorem symbols_enabled {c : Cfg} (hc : c.Reachable) {source : Text} {rs : List (LexRes TokRef)}
    (h : lexAll c source = .ok rs) {x : Token} (hx : x ∈ flatTokens rs) {y : Symbol} (hy : x.type = .symbol y) :
    Enabled c y := by
  obtain ⟨_, _, _, h⟩ := wf_of_mem hc h hx (by rw [hy]; rfl)
  rw [hy] at h
  exact h.1

/-- **C12, Lua 5.1.** When no later version is active, only the symbols of Lua 5.1 are produced. -/
theorem lua51_symbols {c : Cfg} (hc : c.Reachable) (h51 : ∀ v, c.has v = false) {source : Text}
    {rs : List (LexRes TokRef)} (h : lexAll c source = .ok rs) {x : Token} (hx : x ∈ flatTokens rs) {y : Symbol}
    (hy : x.type = .symbol y) :
    y.text ∈ keywords ++ [c!"+", c!"-", c!"*", c!"/", c!"%", c!"^", c!"#", c!"==", c!"~=", c!"<=", c!">=", c!"<",
      c!">", c!"=", c!"(", c!")", c!"{", c!"}", c!"[", c!"]", c!";", c!":", c!",", c!".", c!"..", c!"..."] := by
  have he := symbols_enabled hc h hx hy
  rcases he with he | ⟨v, _, he⟩
  · revert he
    cases y <;> decide
  · rw [h51 v] at he; simp at he

example : ∀ v, cfg51.has v = false := by intro v; cases v <;> rfl
example : ∃ rs x, lexAll cfg51 c!"a // b" = .ok rs ∧ x ∈ flatTokens rs ∧ x.type = .symbol .slash := by
  refine ⟨_, ⟨⟨2, 1, 3⟩, ⟨3, 1, 4⟩, .symbol .slash⟩, rfl, by decide, rfl⟩

/-! ## C13 -/

/-- **C13.** The body of an error-free long string or comment of level `n` contains the closing bracket of
level `n` nowhere: bracket and body only coincide at the end.  Such a token can be erroneous only inside a
recovered result, so this ranges over the results without an error. -/
theorem long_bracket_closes_first {c : Cfg} (hc : c.Reachable) {source : Text} {rs : List (LexRes TokRef)}
    (h : lexAll c source = .ok rs) {t : TokRef} (ht : .ok t ∈ rs) {x : Token} (hx : x ∈ t.flat) {n : Nat}
    {body : Text} (hb : x.type = .multiLineComment n body ∨ x.type = .stringLiteral body n .brackets) :
    (∀ u v, body ++ closeBracket n = u ++ closeBracket n ++ v → u = body ∧ v = []) ∧
    ∃ before after, source = before ++ x.display ++ after ∧
      x.display = (if x.type.isTrivia then c!"--" else []) ++
        ('[' :: (List.replicate n '=' ++ ['['])) ++ body ++ closeBracket n := by
  obtain ⟨before, after, h1, h2⟩ := ok_token_is_slice hc h ht
  obtain ⟨a, b, hab⟩ := List.append_of_mem hx
  rw [hab, placed_append] at h2
  obtain ⟨_, _, _, h5, _⟩ := h2
  constructor
  · rcases hb with hb | hb <;> rw [hb] at h5 <;> exact h5
  · obtain ⟨bf, af, h6, _⟩ := token_positions hc h ht hab
    refine ⟨bf, af, h6, ?_⟩
    rcases hb with hb | hb <;>
      simp [Token.display, hb, TokenType.display, TokenType.isTrivia, closeBracket]

example : ∃ rs t x, lexAll cfg51 c!"x = [=[ a]] ]=]" = .ok rs ∧ .ok t ∈ rs ∧ x ∈ t.flat ∧
    x.type = .stringLiteral c!" a]] " 1 .brackets := by
  refine ⟨_, ⟨[], ⟨⟨4, 1, 5⟩, ⟨15, 1, 16⟩, .stringLiteral c!" a]] " 1 .brackets⟩, []⟩, _, rfl, by decide, .head _, rfl⟩

/-! ## C14 -/

/-- **C14.** Every tokenizer error of any source has a range that covers a nonempty part of the source. -/
theorem errors_point_into_source {c : Cfg} (hc : c.Reachable) {source : Text} {rs : List (LexRes TokRef)}
    (h : lexAll c source = .ok rs) {e : TokErr} (he : e ∈ errorsOf rs) :
    ∃ before w after, source = before ++ w ++ after ∧ w ≠ [] ∧
      e.range.1 = position before ∧ e.range.2 = position (before ++ w) := by
  obtain ⟨pre, l, hat, hrun, _, _⟩ := lexAll_run hc.good h
  simp only [errorsOf, List.mem_flatMap] at he
  obtain ⟨r, hr, he⟩ := he
  have key : ErrorIn source e := by
    cases r with
    | ok t => simp at he
    | fatal es =>
      obtain ⟨_, _, _, _, ⟨_, _, _, h2, _⟩, _⟩ := hrun.mem hat hr
      exact h2 e he
    | recovered t es =>
      obtain ⟨_, _, _, _, ⟨_, _, _, _, h2, _⟩, _⟩ := hrun.mem hat hr
      exact h2 e he
  obtain ⟨b, w, a, h1, h2, h3⟩ := key
  exact ⟨b, w, a, h1, h2, by rw [h3], by rw [h3]⟩

/-- A result that is not error-free always carries at least one error. -/
theorem failed_results_have_errors {c : Cfg} (hc : c.Reachable) {source : Text} {rs : List (LexRes TokRef)}
    (h : lexAll c source = .ok rs) {es : List TokErr} (hr : .fatal es ∈ rs ∨ ∃ t, .recovered t es ∈ rs) : es ≠ [] := by
  obtain ⟨pre, l, hat, hrun, _, _⟩ := lexAll_run hc.good h
  rcases hr with hr | ⟨t, hr⟩
  · obtain ⟨_, _, _, _, ⟨_, _, h1, _⟩, _⟩ := hrun.mem hat hr
    exact h1
  · obtain ⟨_, _, _, _, ⟨_, _, _, h1, _⟩, _⟩ := hrun.mem hat hr
    exact h1

example : ∃ rs, lexAll cfg51 c!"x = 'a" = .ok rs ∧
    errorsOf rs = [⟨.unclosedString, ⟨4, 1, 5⟩, ⟨6, 1, 7⟩⟩] := ⟨_, rfl, by decide⟩

/-! ## C15 -/

/-- **C15, partial.** An error-free number token has at most one decimal point, or two when it starts with
one.  Missing: numbers starting with a point, for which the code accepts a second one (next theorem). -/
theorem number_points_partial {c : Cfg} (hc : c.Reachable) {source : Text} {rs : List (LexRes TokRef)}
    (h : lexAll c source = .ok rs) {t : TokRef} (ht : .ok t ∈ rs) {n : Text} (hn : t.token.type = .number n) :
    n.count '.' ≤ (if n.head? = some '.' then 2 else 1) ∧ n ≠ [] := by
  obtain ⟨before, after, h1, h2⟩ := ok_token_is_slice hc h ht
  rw [TokRef.flat, placed_append] at h2
  obtain ⟨_, _, _, h5, _⟩ := h2
  rw [hn] at h5
  refine ⟨h5.2, ?_⟩
  rintro rfl
  have := h5.1
  simp [startsWith] at this

/-- Finding: `.5.5` is accepted as one number. -/
theorem number_two_points : ∃ rs, lexAll cfg51 c!".5.5" = .ok rs ∧ errorsOf rs = [] ∧
    (∃ t ∈ tokensOf rs, t.token.type = .number c!".5.5") := by
  refine ⟨_, rfl, by decide, ?_⟩
  exact ⟨_, List.mem_cons_self, rfl⟩

end FM.Props
