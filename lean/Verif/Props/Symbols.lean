import Verif.Props.Tokenizer

/-!
# Properties of symbols: C11, C16
-/

namespace FM.Props
open FM FM.Spec

/-! ## C11 -/

/-- **C11.** Printing an enabled symbol and reading it back returns it. -/
theorem symbol_round_trip {c : Cfg} {y : Symbol} (h : Enabled c y) : Symbol.fromStr c y.text = some y :=
  Symbol.fromStr_text ((enabled_iff c y).1 h)

/-- **C11.** Distinct symbols print differently. -/
theorem symbol_text_injective {y z : Symbol} (h : y.text = z.text) : y = z := Symbol.text_inj h

/-- **C11.** `from_str` returns exactly the enabled symbol with that text. -/
theorem fromStr_iff {c : Cfg} {s : Text} {y : Symbol} :
    Symbol.fromStr c s = some y ↔ Enabled c y ∧ y.text = s := by
  constructor
  · intro h
    obtain ⟨h1, h2⟩ := Symbol.fromStr_some h
    exact ⟨(enabled_iff c y).2 h2, h1⟩
  · rintro ⟨h, rfl⟩
    exact symbol_round_trip h

/-- **C11.** `from_str` fails exactly on texts that are not the text of an enabled symbol. -/
theorem fromStr_none_iff {c : Cfg} {s : Text} :
    Symbol.fromStr c s = none ↔ ∀ y, Enabled c y → y.text ≠ s := by
  constructor
  · intro h y hy hs
    rw [← hs, symbol_round_trip hy] at h
    cases h
  · intro h
    cases hf : Symbol.fromStr c s with
    | none => rfl
    | some y => obtain ⟨h1, h2⟩ := fromStr_iff.1 hf; exact absurd h2 (h y h1)

example : Symbol.fromStr cfgLuau c!"..=" = some .twoDotsEqual ∧ Symbol.fromStr cfg51 c!"..=" = none := by decide

/-! ## C16 -/

theorem step_sentEof {c : Cfg} (hc : c.Reachable) {l l' : Lx} {o : Option (LexRes Token)}
    (h : processNext c l = .ok (o, l')) (h0 : l.src.rest ≠ []) : l'.sentEof = l.sentEof := by
  cases h1 : l.src.rest with
  | nil => exact absurd h1 h0
  | cons ch r => obtain ⟨_, _, _, h2⟩ := processNext_cons hc.good h1 h; exact h2

/-- A character that does not continue a symbol. -/
def Calm (ch : Char) : Prop := isDigit ch = false ∧ ch ∉ ['=', '/', '.', '>', '<', ':', '-', '*', '[']

instance (ch : Char) : Decidable (Calm ch) := by unfold Calm; infer_instance

/-- A symbol is read where it stands in front of a character that does not continue it. -/
theorem processNext_symbol_before {c : Cfg} (hc : c.Reachable) {y : Symbol} (he : Enabled c y) {l : Lx} {rest : Text}
    (hsrc : l.src.rest = y.text ++ rest) (hb : l.braces = []) (hrest : ∀ ch, rest.head? = some ch → (IsWord y.text → isWordChar ch = false) ∧ Calm ch) :
    ∃ stop l', processNext c l = .ok (some (.ok ⟨l.src.pos, stop, .symbol y⟩), l') ∧ l'.src.rest = rest := by
  by_cases hw : IsWord y.text
  · obtain ⟨ty, stop, l', h1, h2, h3⟩ := word_token hc hsrc hw (by
      cases rest with
      | nil => rfl
      | cons ch r => exact (hrest ch rfl).1 hw)
    rcases h3 with ⟨_, z, rfl, hz⟩ | ⟨h3, _⟩
    · rw [Symbol.text_inj hz] at h1
      exact ⟨stop, l', h1, h2⟩
    · exact absurd (reserved_of_word hw ((enabled_iff c y).1 he)) h3
  · have hne : ∀ x, ¬ Calm x → rest.head? ≠ some x := fun x hx h => hx (hrest x h).2
    have hd : headIs isDigit rest = false := by
      cases rest with
      | nil => rfl
      | cons ch r => exact (hrest ch rfl).2.1
    have e1 := hne '=' (by decide)
    have e2 := hne '/' (by decide)
    have e3 := hne '.' (by decide)
    have e4 := hne '>' (by decide)
    have e5 := hne '<' (by decide)
    have e6 := hne ':' (by decide)
    have e7 := hne '-' (by decide)
    have e8 := hne '*' (by decide)
    have e9 := hne '[' (by decide)
    have hg := (Cfg.hasAny_iff _ _).1 ((enabled_iff c y).1 he)
    have hcf := hc.good
    simp only [Cfg.Good, Cfg.cfxlua, Cfg.lua53] at hcf
    by_cases hy : y = .twoColons
    · subst hy
      have ha : c.hasAny [.lua52, .luau, .luajit] = true := by
        rw [Cfg.hasAny_iff]
        refine .inr ?_
        rcases hg with hg | ⟨v, hv, hg⟩
        · cases hg
        · refine ⟨v, ?_, hg⟩
          revert hv; cases v <;> decide
      simp only [Symbol.text, List.cons_append, List.nil_append] at hsrc
      simp [processNext, hsrc, readPlain, isIdentStart, isDigit, readGated, symTok, create, Lx.finish, Src.consume,
        Src.current, Src.advance, ha]
      exact ⟨_, _, ⟨rfl, rfl⟩, rfl⟩
    cases y <;> first
      | exact absurd rfl hy
      | exact absurd ⟨by decide, by decide, by decide⟩ hw
      | (simp only [Symbol.gates, List.cons_ne_nil, false_or, true_or, List.mem_cons, List.not_mem_nil, or_false,
          exists_eq_or_imp, exists_eq_left] at hg
         simp only [Symbol.text, List.cons_append, List.nil_append] at hsrc
         simp [processNext, hsrc, hb, readPlain, isIdentStart, isDigit, readEqual, readTilde, readGated, readSlash, readAngle, readDot,
           readMinus, readMinusRest, readOther, readLeftBracket, symTok, create, Lx.finish, Src.consume, Src.current, Src.advance,
           Cfg.hasAny, e1, e2, e3, e4, e5, e6, e7, e8, e9, hd] <;> exact ⟨_, _, ⟨rfl, rfl⟩, rfl⟩)
      | (simp only [Symbol.gates, List.cons_ne_nil, false_or, true_or, List.mem_cons, List.not_mem_nil, or_false,
          exists_eq_or_imp, exists_eq_left] at hg
         simp only [Symbol.text, List.cons_append, List.nil_append] at hsrc
         cases h1 : c.has .luau <;> cases h2 : c.has .cfxlua <;> cases h3 : c.has .lua53 <;>
         first
         | (exfalso; simp [h1, h2, h3] at hg hcf <;> done)
         | (simp [processNext, hsrc, hb, readPlain, isIdentStart, isDigit, readEqual, readTilde, readGated, readSlash, readAngle, readDot,
           readMinus, readMinusRest, readOther, readLeftBracket, symTok, create, Lx.finish, Src.consume, Src.current, Src.advance,
           Cfg.hasAny, e1, e2, e3, e4, e5, e6, e7, e8, e9, hd, h1, h2, h3] <;> exact ⟨_, _, ⟨rfl, rfl⟩, rfl⟩))

/-- The text consists of blanks. -/
def Blank (t : Text) : Prop := ∀ ch ∈ t, IsBlank ch

set_option linter.unusedSimpArgs false in
theorem processNext_symbol {c : Cfg} (hc : c.Reachable) {y : Symbol} (he : Enabled c y) {l : Lx} {rest : Text}
    (hsrc : l.src.rest = y.text ++ rest) (hb : l.braces = []) (hrest : ∀ ch, rest.head? = some ch → IsBlank ch) :
    ∃ stop l', processNext c l = .ok (some (.ok ⟨l.src.pos, stop, .symbol y⟩), l') ∧ l'.src.rest = rest :=
  processNext_symbol_before hc he hsrc hb fun ch h => by
    rcases hrest ch h with rfl | rfl | rfl | rfl <;> exact ⟨fun _ => rfl, by decide⟩

theorem symbolTrailing_spec {c : Cfg} (hc : c.Reachable) {src : Text} : ∀ (fuel : Nat) (l : Lx) (pre : Text) (acc : List Token),
    At src pre l.src → l.sentEof = false → l.src.rest.length < fuel →
    (symbolTrailing c fuel l acc = .panic ∧ ¬ NoPanic c l) ∨
    ∃ r, symbolTrailing c fuel l acc = .ok r ∧ ∀ ts, r = .ok ts →
      ∃ ws, ts = acc ++ ws ∧ src = pre ++ text ws ∧ ∀ x ∈ ws, ∃ w, x.type = .whitespace w := by
  intro fuel
  induction fuel with
  | zero => intro l _ _ _ _ h; omega
  | succ fuel ih =>
    intro l pre acc hat hs hf
    unfold symbolTrailing
    rcases processNext_total (c := c) (l := l) with ⟨hp, hn⟩ | ⟨o, l', hp⟩
    · exact .inl ⟨by rw [hp], hn⟩
    rw [hp]
    rcases step_spec hc.good hat hp with ⟨_, h2, _⟩ | ⟨h1, _, rfl, _⟩ | ⟨w, hw, hr, hse, hres⟩
    · simp [hs] at h2
    · refine .inr ⟨_, rfl, fun ts h => ⟨[], ?_, ?_, by simp⟩⟩
      · simpa using h.symm
      · have := hat.1; rw [h1] at this; simpa using this
    · rcases hres with ⟨t, rfl, hd, _, _, hne, _⟩ | ⟨es, rfl, hes, _⟩ | ⟨t, es, rfl, _, _, hes, _⟩
      · simp only [Outcome.bind]
        have hlen : l'.src.rest.length < fuel := by
          have h1 := congrArg List.length hr.1
          have := List.length_pos_iff.2 hw
          simp at h1; omega
        have other : ∀ (x : Outcome (Except TokErrType (List Token))),
            x = (match t.display with
              | ch :: _ => .ok (.error (.unexpectedToken ch))
              | [] => .panic) →
            (x = .panic ∧ ¬ NoPanic c l) ∨
            ∃ r, x = .ok r ∧ ∀ ts, r = .ok ts →
              ∃ ws, ts = acc ++ ws ∧ src = pre ++ text ws ∧ ∀ x ∈ ws, ∃ w, x.type = .whitespace w := by
          intro x hx
          rw [hd] at hx
          cases w with
          | nil => exact absurd rfl hw
          | cons ch w => exact .inr ⟨_, hx, fun ts h => by cases h⟩
        cases ht : t.type with
        | whitespace v =>
          simp only
          rcases ih l' (pre ++ w) (acc ++ [t]) (hat.reads hr) (hse.trans hs) hlen with ⟨h1, h2⟩ | ⟨r, h1, h2⟩
          · exact .inl ⟨h1, NoPanic.not_of_suffix hr h2⟩
          · refine .inr ⟨r, h1, fun ts h => ?_⟩
            obtain ⟨ws, e1, e2, e3⟩ := h2 ts h
            refine ⟨t :: ws, by simp [e1], by rw [e2, text_cons, hd]; simp, ?_⟩
            intro x hx
            rcases List.mem_cons.1 hx with rfl | hx
            · exact ⟨v, ht⟩
            · exact e3 x hx
        | eof => exact absurd ht hne
        | _ => exact other _ rfl
      · cases es with
        | nil => exact absurd rfl hes
        | cons e es => exact .inr ⟨_, rfl, fun ts h => by cases h⟩
      · cases es with
        | nil => exact absurd rfl hes
        | cons e es => exact .inr ⟨_, rfl, fun ts h => by cases h⟩

theorem symbolLeading_spec {c : Cfg} (hc : c.Reachable) {src txt : Text} : ∀ (fuel : Nat) (l : Lx) (pre : Text) (acc : List Token),
    At src pre l.src → l.sentEof = false → l.src.rest.length < fuel →
    (symbolLeading c txt fuel l acc = .panic ∧ ¬ NoPanic c l) ∨
    ∃ r, symbolLeading c txt fuel l acc = .ok r ∧ ∀ ts t l', r = .ok (ts, t, l') →
      ∃ ws, ts = acc ++ ws ∧ At src (pre ++ text ws ++ t.display) l'.src ∧ l'.sentEof = false ∧
        l'.src.rest.length < l.src.rest.length ∧ (NoPanic c l → NoPanic c l') ∧
        (∃ y, t.type = .symbol y ∧ Enabled c y) ∧ ∀ x ∈ ws, ∃ w, x.type = .whitespace w := by
  intro fuel
  induction fuel with
  | zero => intro l _ _ _ _ h; omega
  | succ fuel ih =>
    intro l pre acc hat hs hf
    unfold symbolLeading
    rcases processNext_total (c := c) (l := l) with ⟨hp, hn⟩ | ⟨o, l', hp⟩
    · exact .inl ⟨by rw [hp], hn⟩
    rw [hp]
    rcases step_spec hc.good hat hp with ⟨_, h2, _⟩ | ⟨h1, _, rfl, _⟩ | ⟨w, hw, hr, hse, hres⟩
    · simp [hs] at h2
    · exact .inr ⟨_, rfl, fun ts t l' h => by cases h⟩
    · have hlt : l'.src.rest.length < l.src.rest.length := by
        have h1 := congrArg List.length hr.1
        have := List.length_pos_iff.2 hw
        simp at h1; omega
      rcases hres with ⟨t, rfl, hd, _, _, hne, hwf⟩ | ⟨es, rfl, hes, _⟩ | ⟨t, es, rfl, _, _, hes, _⟩
      · simp only [Outcome.bind]
        have other : ∀ (x : Outcome (Except TokErrType (List Token × Token × Lx))) (P : List Token → Token → Lx → Prop),
            x = (match t.display with
              | ch :: _ => .ok (.error (.unexpectedToken ch))
              | [] => .panic) →
            (x = .panic ∧ ¬ NoPanic c l) ∨
            ∃ r, x = .ok r ∧ ∀ ts t l', r = .ok (ts, t, l') → P ts t l' := by
          intro x P hx
          rw [hd] at hx
          cases w with
          | nil => exact absurd rfl hw
          | cons ch w => exact .inr ⟨_, hx, fun _ _ _ h => by cases h⟩
        cases ht : t.type with
        | whitespace v =>
          simp only
          rcases ih l' (pre ++ w) (acc ++ [t]) (hat.reads hr) (hse.trans hs) (by omega) with ⟨h1, h2⟩ | ⟨r, h1, h2⟩
          · exact .inl ⟨h1, NoPanic.not_of_suffix hr h2⟩
          · refine .inr ⟨r, h1, fun ts t' l'' h => ?_⟩
            obtain ⟨ws, e1, e2, e3, e4, e5, e6, e7⟩ := h2 ts t' l'' h
            refine ⟨t :: ws, by simp [e1], by rw [text_cons, hd]; simpa using e2, e3, by omega,
              fun hn => e5 (NoPanic.of_suffix hn hr), e6, ?_⟩
            intro x hx
            rcases List.mem_cons.1 hx with rfl | hx
            · exact ⟨v, ht⟩
            · exact e7 x hx
        | eof => exact absurd ht hne
        | symbol y =>
          refine .inr ⟨_, rfl, fun ts t' l'' h => ?_⟩
          cases h
          refine ⟨[], by simp, ?_, hse.trans hs, hlt, fun hn => NoPanic.of_suffix hn hr, ⟨y, ht, ?_⟩, by simp⟩
          · simpa [hd] using hat.reads hr
          · rw [ht] at hwf; exact hwf.1
        | _ => exact other _ _ rfl
      · cases es with
        | nil => exact absurd rfl hes
        | cons e es => exact .inr ⟨_, rfl, fun _ _ _ h => by cases h⟩
      · cases es with
        | nil => exact absurd rfl hes
        | cons e es => exact .inr ⟨_, rfl, fun _ _ _ h => by cases h⟩

/-- **C16.** `TokenReference::symbol_specific_lua_version` returns normally (unless the text has a backtick
the tokenizer has no rule for, see C07), and a token reference it returns prints as the text, is an enabled
symbol and is surrounded by whitespace tokens only. -/
theorem symbol_specific_sound {c : Cfg} (hc : c.Reachable) {txt : Text} (hb : BackticksOk c txt) :
    ∃ r, symbolSpecific c txt = .ok r ∧ ∀ t, r = .ok t →
      t.display = txt ∧ (∃ y, t.token.type = .symbol y ∧ Enabled c y) ∧
      ∀ x ∈ t.leading ++ t.trailing, ∃ w, x.type = .whitespace w := by
  unfold symbolSpecific
  rcases symbolLeading_spec hc (src := txt) (txt := txt) (txt.length + 2) (Lx.new txt) [] [] (At.new txt) rfl
    (by simp [Lx.new, Src.new]) with ⟨_, h⟩ | ⟨r, h1, h2⟩
  · exact absurd hb h
  rw [h1]
  simp only [Outcome.bind]
  rcases r with e | ⟨ld, t, l⟩
  · exact ⟨_, rfl, fun t h => by cases h⟩
  · obtain ⟨ws, e1, e2, e3, e4, e5, e6, e7⟩ := h2 ld t l rfl
    simp only [Lx.new, Src.new] at e4
    rcases symbolTrailing_spec hc (txt.length + 2) l _ [] e2 e3 (by omega) with ⟨_, h⟩ | ⟨r, h1, h2⟩
    · exact absurd (e5 hb) h
    simp only [h1]
    cases r with
    | error e => exact ⟨_, rfl, fun t h => by cases h⟩
    | ok ts =>
      refine ⟨_, rfl, fun t' h => ?_⟩
      cases h
      obtain ⟨ws', f1, f2, f3⟩ := h2 ts rfl
      simp only [List.nil_append] at e1 f1
      subst e1 f1
      refine ⟨?_, e6, ?_⟩
      · conv => rhs; rw [f2]
        simp [TokRef.display, text]
      · intro x hx
        rcases List.mem_append.1 hx with hx | hx
        · exact e7 x hx
        · exact f3 x hx

/-- One whitespace token. -/
theorem processNext_blank {c : Cfg} (hc : c.Reachable) {l : Lx} {ch : Char} {r : Text} (h0 : l.src.rest = ch :: r)
    (hch : IsBlank ch) : ∃ t w l', processNext c l = .ok (some (.ok t), l') ∧ t.type = .whitespace w ∧ w ≠ [] ∧
      Reads l.src w l'.src ∧ (∀ x ∈ w, IsBlank x) ∧ l'.sentEof = l.sentEof ∧ l'.braces = l.braces := by
  have hform : ∃ t w l', processNext c l = .ok (some (.ok t), l') ∧ t.type = .whitespace w ∧ l'.braces = l.braces := by
    rcases hch with rfl | rfl | rfl | rfl
    · have h : processNext c l = .ok (l.finish (readWhitespace l.src.pos ' ' ⟨r, l.src.pos.advance ' '⟩)) := by
        simp [processNext, h0, readPlain, isIdentStart, Lx.finish]
      exact ⟨_, _, _, h, rfl, rfl⟩
    · have h : processNext c l = .ok (l.finish (readWhitespace l.src.pos '\t' ⟨r, l.src.pos.advance '\t'⟩)) := by
        simp [processNext, h0, readPlain, isIdentStart, Lx.finish]
      exact ⟨_, _, _, h, rfl, rfl⟩
    · have h : processNext c l = .ok (l.finish (readWhitespace l.src.pos '\r' ⟨r, l.src.pos.advance '\r'⟩)) := by
        simp [processNext, h0, readPlain, isIdentStart, Lx.finish]
      exact ⟨_, _, _, h, rfl, rfl⟩
    · have h : processNext c l = .ok (l.finish (.ok ⟨l.src.pos, ⟨l.src.pos.bytes + 1, l.src.pos.line, l.src.pos.character⟩,
          .whitespace ['\n']⟩, ⟨r, l.src.pos.advance '\n'⟩)) := by
        simp [processNext, h0, readPlain, isIdentStart, isDigit, Lx.finish]
      exact ⟨_, _, _, h, rfl, rfl⟩
  obtain ⟨t, w, l', h1, h2, h3⟩ := hform
  obtain ⟨res, hres, ⟨v, hv, hr, hg⟩, hse⟩ := processNext_cons hc.good h0 h1
  cases hres
  simp only at hg
  obtain ⟨_, _, g3, _, g5⟩ := hg
  rw [h2] at g5
  have : v = w := by rw [← g3]; simp [Token.display, h2, TokenType.display]
  subst this
  exact ⟨t, v, l', h1, h2, g5.1, hr, g5.2.1, hse, h3⟩

/-- A run of blanks read from the front of `ws ++ rest` stays inside `ws` when `rest` does not start with one. -/
theorem blank_prefix : ∀ {w ws rest rest' : Text}, (∀ x ∈ w, IsBlank x) → (∀ x, rest.head? = some x → ¬ IsBlank x) →
    ws ++ rest = w ++ rest' → ∃ ws', ws = w ++ ws' ∧ rest' = ws' ++ rest := by
  intro w
  induction w with
  | nil => intro ws rest rest' _ _ h; exact ⟨ws, rfl, by simpa using h.symm⟩
  | cons x w ih =>
    intro ws rest rest' hw hr h
    cases ws with
    | nil =>
      simp only [List.nil_append, List.cons_append] at h
      exact absurd (hw x (by simp)) (hr x (by rw [h]; rfl))
    | cons z ws =>
      simp only [List.cons_append, List.cons.injEq] at h
      obtain ⟨rfl, h⟩ := h
      obtain ⟨ws', rfl, h2⟩ := ih (fun x hx => hw x (by simp [hx])) hr h
      exact ⟨ws', rfl, h2⟩

theorem symbolTrailing_blank {c : Cfg} (hc : c.Reachable) : ∀ (fuel : Nat) (l : Lx) (acc : List Token),
    Blank l.src.rest → l.sentEof = false → l.src.rest.length < fuel →
    ∃ ts, symbolTrailing c fuel l acc = .ok (.ok ts) := by
  intro fuel
  induction fuel with
  | zero => intro l _ _ _ h; omega
  | succ fuel ih =>
    intro l acc hb hs hf
    unfold symbolTrailing
    cases h0 : l.src.rest with
    | nil => rw [processNext_nil h0, hs]; exact ⟨_, rfl⟩
    | cons ch r =>
      obtain ⟨t, w, l', h1, h2, h3, h4, _, h6, _⟩ := processNext_blank hc h0 (hb ch (by simp [h0]))
      have hl := congrArg List.length h4.1
      have := List.length_pos_iff.2 h3
      simp at hl
      obtain ⟨ts, hts⟩ := ih l' (acc ++ [t]) (fun x hx => hb x (by rw [h4.1]; simp [hx])) (h6.trans hs) (by omega)
      refine ⟨ts, ?_⟩
      rw [h1]
      simp only [Outcome.bind, h2]
      exact hts

theorem symbolLeading_blank {c : Cfg} (hc : c.Reachable) {txt rest : Text} {y : Symbol} (he : Enabled c y)
    (hrest : Blank rest) : ∀ (fuel : Nat) (l : Lx) (ws : Text) (acc : List Token),
    Blank ws → l.src.rest = ws ++ (y.text ++ rest) → l.braces = [] → l.sentEof = false → l.src.rest.length < fuel →
    ∃ ts t l', symbolLeading c txt fuel l acc = .ok (.ok (ts, t, l')) ∧ t.type = .symbol y ∧ l'.src.rest = rest ∧
      l'.sentEof = false := by
  have hy : ∀ x, (y.text ++ rest).head? = some x → ¬ IsBlank x := by
    intro x hx
    have : y.text.head?.all (fun x => x != ' ' && x != '\t' && x != '\r' && x != '\n') ∧ y.text ≠ [] := by
      cases y <;> decide
    cases hyt : y.text with
    | nil => exact absurd hyt this.2
    | cons z t =>
      rw [hyt] at hx this
      simp at hx this
      subst hx
      simp [IsBlank, this]
  intro fuel
  induction fuel with
  | zero => intro l _ _ _ _ _ _ h; omega
  | succ fuel ih =>
    intro l ws acc hb hsrc hbr hs hf
    unfold symbolLeading
    cases ws with
    | nil =>
      obtain ⟨stop, l', h1, h2⟩ := processNext_symbol hc he hsrc hbr
        (fun x hx => hrest x (List.mem_of_head? hx))
      have hse := step_sentEof hc h1 (by
        rw [hsrc]
        intro h
        simp at h
        have : y.text ≠ [] := by cases y <;> decide
        exact this h.1)
      refine ⟨acc, ⟨l.src.pos, stop, .symbol y⟩, l', ?_, rfl, h2, hse.trans hs⟩
      rw [h1]
    | cons ch r =>
      have h0 : l.src.rest = ch :: (r ++ (y.text ++ rest)) := by simpa using hsrc
      obtain ⟨t, w, l', h1, h2, h3, h4, h5, h6, h7⟩ := processNext_blank hc h0 (hb ch (by simp))
      have hl := congrArg List.length h4.1
      have := List.length_pos_iff.2 h3
      simp at hl
      obtain ⟨ws', e1, e2⟩ := blank_prefix h5 hy (hsrc.symm.trans h4.1)
      obtain ⟨ts, t', l'', g1, g2⟩ := ih l' ws' (acc ++ [t]) (fun x hx => hb x (by rw [e1]; simp [hx])) e2
        (h7.trans hbr) (h6.trans hs) (by omega)
      refine ⟨ts, t', l'', ?_, g2⟩
      rw [h1]
      simp only [Outcome.bind, h2]
      exact g1

/-- **C16.** It succeeds on the text of every enabled symbol, with any blanks around it. -/
theorem symbol_specific_complete {c : Cfg} (hc : c.Reachable) {y : Symbol} (he : Enabled c y) {ws ws' : Text}
    (h1 : Blank ws) (h2 : Blank ws') :
    ∃ t, symbolSpecific c (ws ++ (y.text ++ ws')) = .ok (.ok t) ∧ t.token.type = .symbol y := by
  unfold symbolSpecific
  obtain ⟨ts, t, l, e1, e2, e3, e4⟩ := symbolLeading_blank hc (txt := ws ++ (y.text ++ ws')) he h2
    ((ws ++ (y.text ++ ws')).length + 2) (Lx.new (ws ++ (y.text ++ ws'))) ws [] h1 rfl rfl rfl
    (by simp [Lx.new, Src.new])
  rw [e1]
  simp only [Outcome.bind]
  obtain ⟨ts', h⟩ := symbolTrailing_blank hc ((ws ++ (y.text ++ ws')).length + 2) l [] (by rw [e3]; exact h2) e4
    (by rw [e3]; simp; omega)
  simp only [h]
  exact ⟨_, rfl, e2⟩

/-- Non-vacuity, and a failing case: a symbol of another version. -/
example : ∃ t, symbolSpecific cfgLuau c!" \n-> " = .ok (.ok t) ∧ t.token.type = .symbol .thinArrow ∧
    t.leading.length = 1 := ⟨_, rfl, by decide⟩
example : symbolSpecific cfg51 c!"->" = .ok (.error (.unexpectedToken '>')) := rfl
example : symbolSpecific cfg51 c!" " = .ok (.error (.invalidSymbol [' '])) := rfl
example : Enabled cfgLuau .thinArrow ∧ ¬ Enabled cfg51 .thinArrow := by
  constructor
  · exact .inr ⟨.luau, by decide, by decide⟩
  · rintro (h | ⟨v, hv, h⟩)
    · revert h; decide
    · revert h; cases v <;> decide

end FM.Props
