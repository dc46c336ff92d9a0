import Verif.Proofs.LexerCore

/-! Helper lemmas: one step of the tokenizer. -/

namespace FM
open Spec

/-- What the version closure is needed for: `//`, `<<`, `>>` are read when CfxLua is active and are
declared for Lua 5.3. -/
def Cfg.Good (c : Cfg) : Prop := c.cfxlua = true → c.lua53 = true

theorem readEqual_good {c : Cfg} {s0 : Src} {r : List Char} (h0 : s0.rest = '=' :: r) :
    GoodRes c s0 (readEqual s0.pos ⟨r, s0.pos.advance '='⟩) := by
  have h1 := src_cons h0
  unfold readEqual
  split
  · rename_i s hs
    exact symTok_good (h1.trans (consume_true hs)) rfl rfl (by decide)
  · rename_i s hs
    obtain ⟨rfl, _⟩ := consume_false hs
    exact symTok_good h1 rfl rfl (by decide)

theorem readTilde_good {c : Cfg} {s0 : Src} {r : List Char} (h0 : s0.rest = '~' :: r) :
    GoodRes c s0 (readTilde c s0.pos ⟨r, s0.pos.advance '~'⟩) := by
  have h1 := src_cons h0
  unfold readTilde
  split
  · rename_i s hs
    exact symTok_good (h1.trans (consume_true hs)) rfl rfl (by decide)
  · rename_i s hs
    obtain ⟨rfl, _⟩ := consume_false hs
    split
    · rename_i hv
      exact symTok_good h1 rfl hv (by decide)
    · exact ⟨['~'], by simp, h1, _, rfl, rfl⟩

theorem readGated_good {c : Cfg} {vs : List Ver} {ch x : Char} {y z : Symbol} {s0 : Src} {r : List Char}
    (h0 : s0.rest = x :: r) (hy : y.text = [x, ch]) (hz : z.text = [x])
    (hyg : c.hasAny vs = true → c.hasAny y.gates = true) (hzg : z.gates = [])
    (hx : ch ≠ '\n' ∧ x ≠ '\n' ∧ isWordChar x = false) :
    GoodRes c s0 (readGated c vs ch y z s0.pos ⟨r, s0.pos.advance x⟩) := by
  have h1 := src_cons h0
  have plain : GoodRes c s0 (symTok s0.pos z ⟨r, s0.pos.advance x⟩) :=
    symTok_good h1 hz (by rw [hzg]; rfl) ⟨by simp, by simpa using hx.2.1, hx.2.2⟩
  unfold readGated
  split
  · rename_i hv
    split
    · rename_i s hs
      exact symTok_good (h1.trans (consume_true hs)) hy (hyg hv) ⟨by simp, by simpa using hx.1, hx.2.2⟩
    · rename_i s hs
      obtain ⟨rfl, _⟩ := consume_false hs
      exact plain
  · exact plain

theorem readAngle_good {c : Cfg} (hc : c.Good) {ch : Char} {de d e pl : Symbol} {s0 : Src} {r : List Char}
    (h0 : s0.rest = ch :: r) (h1' : de.text = [ch, ch, '='] ∧ de.gates = [.cfxlua])
    (h2' : d.text = [ch, ch] ∧ d.gates = [.lua53]) (h3' : e.text = [ch, '='] ∧ e.gates = [])
    (h4' : pl.text = [ch] ∧ pl.gates = []) (hx : ch ≠ '\n' ∧ isWordChar ch = false) :
    GoodRes c s0 (readAngle c ch de d e pl s0.pos ⟨r, s0.pos.advance ch⟩) := by
  have h1 := src_cons h0
  have plain : GoodRes c s0 (match (⟨r, s0.pos.advance ch⟩ : Src).consume '=' with
    | (true, s) => symTok s0.pos e s
    | (false, s) => symTok s0.pos pl s) := by
    split
    · rename_i s hs
      exact symTok_good (h1.trans (consume_true hs)) h3'.1 (by rw [h3'.2]; rfl)
        ⟨by simp, by simp, hx.2⟩
    · rename_i s hs
      obtain ⟨rfl, _⟩ := consume_false hs
      exact symTok_good h1 h4'.1 (by rw [h4'.2]; rfl) ⟨by simp, by simpa using hx.1, hx.2⟩
  unfold readAngle
  split
  · rename_i hv
    split
    · rename_i s hs
      have h2 := h1.trans (consume_true hs)
      have hdg : c.hasAny d.gates = true := by
        rw [h2'.2]
        simp only [Cfg.hasAny_one, Cfg.hasAny_two, Bool.or_eq_true] at hv ⊢
        rcases hv with hv | hv
        · exact hv
        · exact hc hv
      have dbl : GoodRes c s0 (symTok s0.pos d s) :=
        symTok_good h2 h2'.1 hdg ⟨by simp, by simpa using hx.1, hx.2⟩
      split
      · rename_i hv2
        split
        · rename_i s' hs'
          exact symTok_good (h2.trans (consume_true hs')) h1'.1 (by rw [h1'.2]; exact hv2)
            ⟨by simp, by simp, hx.2⟩
        · rename_i s' hs'
          obtain ⟨rfl, _⟩ := consume_false hs'
          exact dbl
      · exact dbl
    · rename_i s hs
      obtain ⟨rfl, _⟩ := consume_false hs
      exact plain
  · exact plain

theorem readSlash_good {c : Cfg} (hc : c.Good) {s0 : Src} {r : List Char} (h0 : s0.rest = '/' :: r) :
    GoodRes c s0 (readSlash c s0.pos ⟨r, s0.pos.advance '/'⟩) := by
  have h1 := src_cons h0
  have plain : GoodRes c s0 (symTok s0.pos .slash ⟨r, s0.pos.advance '/'⟩) :=
    symTok_good h1 rfl rfl (by decide)
  unfold readSlash
  split
  · rename_i hv
    split
    · rename_i s hs
      have h2 := h1.trans (consume_true hs)
      have hdg : c.hasAny Symbol.doubleSlash.gates = true := by
        simp only [Symbol.gates, Cfg.hasAny_three, Cfg.hasAny_two, Bool.or_eq_true] at hv ⊢
        rcases hv with hv | hv | hv
        · exact .inr hv
        · exact .inl hv
        · exact .inr (hc hv)
      have dbl : GoodRes c s0 (symTok s0.pos .doubleSlash s) := symTok_good h2 rfl hdg (by decide)
      split
      · rename_i hv2
        split
        · rename_i s' hs'
          exact symTok_good (h2.trans (consume_true hs')) rfl hv2 (by decide)
        · rename_i s' hs'
          obtain ⟨rfl, _⟩ := consume_false hs'
          exact dbl
      · exact dbl
    · rename_i s hs
      obtain ⟨rfl, _⟩ := consume_false hs
      split
      · rename_i s' hs'
        split at hs'
        · rename_i hv2
          exact symTok_good (h1.trans (consume_true hs')) rfl hv2 (by decide)
        · simp at hs'
      · rename_i s' hs'
        have : s' = ⟨r, s0.pos.advance '/'⟩ := by
          split at hs'
          · exact (consume_false hs').1
          · simp at hs'; exact hs'.symm
        subst this
        split
        · rename_i s'' hs''
          split at hs''
          · rename_i hv2
            have h2 := h1.trans (consume_true hs'')
            obtain ⟨w, e1, e2, e3⟩ := cStyleLoop_spec s''.rest s''.pos []
            simp only [commentToken]
            cases hb : (cStyleLoop s''.rest s''.pos []).2.1
            · obtain ⟨e4, e5⟩ := e2 hb
              simp only [Bool.false_eq_true, if_false, createRecovered_nil]
              have hr := h2.trans e4
              refine goodRes_create (w := _) (by simp) hr ?_ ?_ (by simp) ?_
              · simp [TokenType.display, e1]
              · rw [← List.append_assoc, List.getLast?_append]; simp
              · simp only [TypeWf, e1]
                exact ⟨by rwa [Cfg.hasAny_one] at hv2, by simpa using e5⟩
            · simp only [if_true]
              exact goodRes_recovered (by simp) (h2.trans (e3 hb)) rfl
          · simp at hs''
        · rename_i s'' hs''
          have : s'' = ⟨r, s0.pos.advance '/'⟩ := by
            split at hs''
            · exact (consume_false hs'').1
            · simp at hs''; exact hs''.symm
          subst this
          exact plain
  · exact plain

theorem readDot_good {c : Cfg} {s0 : Src} {r : List Char} (h0 : s0.rest = '.' :: r) :
    GoodRes c s0 (readDot c s0.pos ⟨r, s0.pos.advance '.'⟩) := by
  have h1 := src_cons h0
  unfold readDot
  split
  · rename_i s hs
    have h2 := h1.trans (consume_true hs)
    split
    · rename_i s' hs'
      exact symTok_good (h2.trans (consume_true hs')) rfl rfl (by decide)
    · rename_i s' hs'
      obtain ⟨rfl, _⟩ := consume_false hs'
      split
      · rename_i hv
        split
        · rename_i s'' hs''
          exact symTok_good (h2.trans (consume_true hs'')) rfl hv (by decide)
        · rename_i s'' hs''
          obtain ⟨rfl, _⟩ := consume_false hs''
          exact symTok_good h2 rfl rfl (by decide)
      · exact symTok_good h2 rfl rfl (by decide)
  · rename_i s hs
    obtain ⟨rfl, _⟩ := consume_false hs
    split
    · exact readNumber_good h0 (.inr rfl)
    · exact symTok_good h1 rfl rfl (by decide)

theorem readMinus_good {c : Cfg} {s0 : Src} {r : List Char} (h0 : s0.rest = '-' :: r) :
    GoodRes c s0 (readMinus c s0.pos ⟨r, s0.pos.advance '-'⟩) := by
  have h1 := src_cons h0
  have rest : GoodRes c s0 (readMinusRest s0.pos ⟨r, s0.pos.advance '-'⟩) := by
    unfold readMinusRest
    split
    · rename_i s hs
      exact readComment_good (h1.trans (consume_true hs))
    · rename_i s hs
      obtain ⟨rfl, _⟩ := consume_false hs
      exact symTok_good h1 rfl rfl (by decide)
  unfold readMinus
  split
  · rename_i hv
    split
    · rename_i s hs
      exact symTok_good (h1.trans (consume_true hs)) rfl hv (by decide)
    · rename_i s hs
      obtain ⟨rfl, _⟩ := consume_false hs
      split
      · rename_i hv2
        split
        · rename_i s hs
          exact symTok_good (h1.trans (consume_true hs)) rfl hv2 (by decide)
        · rename_i s hs
          obtain ⟨rfl, _⟩ := consume_false hs
          exact rest
      · exact rest
  · exact rest

theorem readLeftBracket_good {c : Cfg} {s0 : Src} {r : List Char} (h0 : s0.rest = '[' :: r) :
    GoodRes c s0 (readLeftBracket s0.pos ⟨r, s0.pos.advance '['⟩) := by
  have h1 := src_cons h0
  have plain : GoodRes c s0 (create s0.pos (.symbol .leftBracket) ⟨r, s0.pos.advance '['⟩) :=
    symTok_good h1 rfl rfl (by decide)
  unfold readLeftBracket
  split
  · rcases readMultiLineBody_spec ⟨r, s0.pos.advance '['⟩ with
      ⟨n, body, e1, e2, e3⟩ | ⟨n, body, e1, e2, e3⟩ | ⟨n, e1, e2⟩
    · generalize readMultiLineBody ⟨r, s0.pos.advance '['⟩ = m at *
      obtain ⟨m1, m2⟩ := m
      simp only at e1 e2 e3
      subst e1
      refine goodRes_create (by simp) (h1.trans e2) ?_ ?_ (by simp) e3
      · simp [TokenType.display, closeBracket]
      · rw [← List.append_assoc]
        exact closeBracket_getLast _ _
    · generalize readMultiLineBody ⟨r, s0.pos.advance '['⟩ = m at *
      obtain ⟨m1, m2⟩ := m
      simp only at e1 e2 e3
      subst e1
      exact goodRes_recovered (by simp) (h1.trans e2) rfl
    · generalize readMultiLineBody ⟨r, s0.pos.advance '['⟩ = m at *
      obtain ⟨m1, m2⟩ := m
      simp only at e1 e2
      subst e1
      exact plain
  · exact plain

theorem readOther_good {c : Cfg} {s0 : Src} {ch : Char} {r : List Char} (h0 : s0.rest = ch :: r) :
    GoodRes c s0 (readOther c s0.pos ch ⟨r, s0.pos.advance ch⟩) := by
  have h1 := src_cons h0
  unfold readOther
  split
  · rename_i h
    obtain ⟨rfl, hv, hcur⟩ := h
    exact symTok_good (h1.trans (advance_of_current hcur)) rfl
      (by simpa only [Symbol.gates, Cfg.hasAny_one] using hv) (by decide)
  · split
    · rename_i h
      obtain ⟨rfl, hv, hcur⟩ := h
      exact symTok_good (h1.trans (advance_of_current hcur)) rfl
        (by simpa only [Symbol.gates, Cfg.hasAny_one] using hv) (by decide)
    · split
      · rename_i h
        obtain ⟨rfl, hv, hcur⟩ := h
        exact symTok_good (h1.trans (advance_of_current hcur)) rfl
          (by simpa only [Symbol.gates, Cfg.hasAny_one] using hv) (by decide)
      · split
        · rename_i h
          obtain ⟨rfl, hv⟩ := h
          exact symTok_good h1 rfl
            (by simp only [Symbol.gates, Cfg.hasAny_two, Bool.or_eq_true]; exact hv.symm) (by decide)
        · split
          · rename_i h
            obtain ⟨rfl, hv⟩ := h
            exact symTok_good h1 rfl
              (by simp only [Symbol.gates, Cfg.hasAny_two, Bool.or_eq_true]; exact hv.symm) (by decide)
          · split
            · rename_i h
              obtain ⟨rfl, hv⟩ := h
              exact symTok_good h1 rfl (by simpa only [Symbol.gates, Cfg.hasAny_one] using hv) (by decide)
            · split
              · rename_i h
                obtain ⟨rfl, hv⟩ := h
                exact symTok_good h1 rfl (by simpa only [Symbol.gates, Cfg.hasAny_one] using hv) (by decide)
              · exact ⟨[ch], by simp, h1, _, rfl, rfl⟩

theorem goodRes_ite {c : Cfg} {s0 : Src} {P : Prop} [Decidable P] {a b : ReadRes}
    (h1 : P → GoodRes c s0 a) (h2 : ¬ P → GoodRes c s0 b) : GoodRes c s0 (if P then a else b) := by
  by_cases h : P
  · rw [if_pos h]; exact h1 h
  · rw [if_neg h]; exact h2 h

theorem readPlain_good {c : Cfg} (hc : c.Good) {s0 : Src} {ch : Char} {r : List Char} (h0 : s0.rest = ch :: r) :
    GoodRes c s0 (readPlain c s0.pos ch ⟨r, s0.pos.advance ch⟩) := by
  have h1 := src_cons h0
  unfold readPlain
  iterate 24
    (refine goodRes_ite (fun h => ?_) (fun _ => ?_)
     focus
       first
         | exact readIdent_good h0 h
         | exact readWhitespace_good h0 h
         | (subst h; exact symTok_good h1 rfl rfl (by decide))
         | (subst h; exact readZero_good h0)
         | exact readNumber_good h0 (.inl h)
         | (subst h; exact readEqual_good h0)
         | (subst h; exact readTilde_good h0)
         | (subst h; exact readLeftBracket_good h0)
         | (subst h; exact readSlash_good hc h0)
         | (subst h; exact readDot_good h0)
         | (subst h; exact readMinus_good h0)
         | (subst h; exact readAngle_good hc h0 ⟨rfl, rfl⟩ ⟨rfl, rfl⟩ ⟨rfl, rfl⟩ ⟨rfl, rfl⟩ (by decide))
         | (subst h; exact readGated_good h0 rfl rfl (fun h => h) rfl (by decide))
         | (subst h
            refine readGated_good h0 rfl rfl (fun h => ?_) rfl (by decide)
            simp only [Symbol.gates, Cfg.hasAny_three, Bool.or_eq_true] at h ⊢
            rcases h with h | h | h <;> simp [h])
         | (subst h
            refine ⟨['\n'], by simp, h1, rfl, ?_, rfl, by simp, by simp, by simp [IsBlank], by simp⟩
            simp [tokenEnd, Position.advance]
            decide))
  exact readOther_good h0

/-- The specification of one step, when the source is not exhausted. -/
theorem processNext_cons {c : Cfg} (hc : c.Good) {l : Lx} {ch : Char} {r : List Char}
    (h0 : l.src.rest = ch :: r) {o : Option (LexRes Token)} {l' : Lx} (h : processNext c l = .ok (o, l')) :
    ∃ res, o = some res ∧ GoodRes c l.src (res, l'.src) ∧ l'.sentEof = l.sentEof := by
  have h1 := src_cons h0
  have sect : ∀ (bs : List BraceType) (k1 k2 : InterpKind) (q : Char) (hq : ch = q)
      (hk1 : ∀ lit, (TokenType.interpolated lit k1).display = [q] ++ lit ++ ['{'])
      (hk2 : ∀ lit, (TokenType.interpolated lit k2).display = [q] ++ lit ++ ['`']) (hv : c.luau = true),
      (Outcome.ok (readSection ⟨⟨r, l.src.pos.advance ch⟩, l.sentEof, bs⟩ l.src.pos k1 k2) = .ok (o, l')) →
      ∃ res, o = some res ∧ GoodRes c l.src (res, l'.src) ∧ l'.sentEof = l.sentEof := by
    intro bs k1 k2 q hq hk1 hk2 hv h
    obtain ⟨w, e1, e2⟩ := sectionLoop_spec r.length r (l.src.pos.advance ch) [] false false
    simp only [Outcome.ok.injEq] at h
    unfold readSection at h
    simp only at h
    generalize sectionLoop r.length r (l.src.pos.advance ch) [] false false = m at *
    obtain ⟨m1, m2, m3⟩ := m
    simp only [List.nil_append] at e1 e2
    subst e1
    have hr := h1.trans e2
    subst hq
    cases m2 with
    | brace =>
      simp only [Prod.mk.injEq] at h
      obtain ⟨rfl, rfl⟩ := h
      refine ⟨_, rfl, goodRes_create (by simp) hr ?_ ?_ (by simp) hv, rfl⟩
      · simp [hk1, SectionEnd.text]
      · rw [← List.append_assoc, List.getLast?_append]; simp [SectionEnd.text]
    | backtick =>
      simp only [Prod.mk.injEq] at h
      obtain ⟨rfl, rfl⟩ := h
      refine ⟨_, rfl, goodRes_create (by simp) hr ?_ ?_ (by simp) hv, rfl⟩
      · simp [hk2, SectionEnd.text]
      · rw [← List.append_assoc, List.getLast?_append]; simp [SectionEnd.text]
    | unclosed =>
      simp only [Prod.mk.injEq] at h
      obtain ⟨rfl, rfl⟩ := h
      exact ⟨_, rfl, goodRes_recovered (by simp) hr rfl, rfl⟩
  unfold processNext at h
  simp only [h0] at h
  split at h
  · split at h
    · rename_i hh
      refine sect l.braces _ _ '`' hh.2 ?_ ?_ hh.1 h
      · intro lit; simp [TokenType.display]
      · intro lit; simp [TokenType.display]
    · cases hs : readString c l.src.pos ch ⟨r, l.src.pos.advance ch⟩ with
      | panic => simp [hs, Outcome.bind] at h
      | diverge => simp [hs, Outcome.bind] at h
      | ok res =>
        simp only [hs, Outcome.bind, Lx.finish, Outcome.ok.injEq, Prod.mk.injEq] at h
        obtain ⟨rfl, rfl⟩ := h
        exact ⟨_, rfl, readString_good h0 hs, rfl⟩
  · split at h
    · rename_i hh
      subst hh
      simp only [Lx.finish, Outcome.ok.injEq, Prod.mk.injEq] at h
      obtain ⟨rfl, rfl⟩ := h
      exact ⟨_, rfl, symTok_good h1 rfl rfl (by decide), rfl⟩
    · split at h
      · rename_i hh
        subst hh
        have plain : GoodRes c l.src (symTok l.src.pos .rightBrace ⟨r, l.src.pos.advance '}'⟩) :=
          symTok_good h1 rfl rfl (by decide)
        split at h
        · rename_i hv
          split at h
          · refine sect l.braces.tail _ _ '}' rfl ?_ ?_ hv h
            · intro lit; simp [TokenType.display]
            · intro lit; simp [TokenType.display]
          · simp only [Lx.finish, Outcome.ok.injEq, Prod.mk.injEq] at h
            obtain ⟨rfl, rfl⟩ := h
            exact ⟨_, rfl, plain, rfl⟩
        · simp only [Lx.finish, Outcome.ok.injEq, Prod.mk.injEq] at h
          obtain ⟨rfl, rfl⟩ := h
          exact ⟨_, rfl, plain, rfl⟩
      · simp only [Lx.finish, Outcome.ok.injEq, Prod.mk.injEq] at h
        obtain ⟨rfl, rfl⟩ := h
        exact ⟨_, rfl, readPlain_good hc h0, rfl⟩

theorem processNext_nil {c : Cfg} {l : Lx} (h0 : l.src.rest = []) :
    processNext c l = if l.sentEof then .ok (none, l)
      else .ok (some (.ok ⟨l.src.pos, l.src.pos, .eof⟩), { l with sentEof := true }) := by
  unfold processNext
  simp only [h0]

/-- The only panic of the tokenizer. -/
theorem processNext_panic {c : Cfg} {l : Lx} :
    processNext c l = .panic ↔
      l.src.rest.head? = some '`' ∧ c.luau = false ∧ c.feat.cfxlua = false := by
  unfold processNext
  cases h0 : l.src.rest with
  | nil => simp; split <;> simp
  | cons ch r =>
    simp only [List.head?_cons, Option.some.injEq]
    split
    · rename_i hq
      split
      · rename_i h; simp [h]
      · rename_i h
        unfold readString
        cases hqt : quoteType c ch with
        | none =>
          simp only [Outcome.bind]
          simp only [true_iff]
          unfold quoteType at hqt
          rcases hq with rfl | rfl | rfl
          · simp at hqt
          · simp at hqt
          · simp at hqt h
            exact ⟨rfl, h, hqt⟩
        | some qt =>
          simp only [Outcome.bind, reduceCtorEq, false_iff]
          rintro ⟨rfl, _, h2⟩
          simp [quoteType, h2] at hqt
    · rename_i hq
      have : ch ≠ '`' := fun e => hq (.inr (.inr e))
      simp only [this, false_and, iff_false]
      split
      · simp
      · split
        · split
          · split <;> simp
          · simp
        · simp

theorem processNext_not_diverge {c : Cfg} {l : Lx} : processNext c l ≠ .diverge := by
  unfold processNext
  cases h0 : l.src.rest with
  | nil => simp; split <;> simp
  | cons ch r =>
    simp only
    split
    · split
      · simp
      · unfold readString
        split <;> simp [Outcome.bind]
    · split
      · simp
      · split
        · split
          · split <;> simp
          · simp
        · simp

end FM
