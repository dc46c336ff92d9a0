import Verif.Proofs.Adjacent
import Verif.Proofs.Layout
import Verif.Proofs.StreamFacts

/-!
# Tokens in later versions
-/

namespace FM.Spec
open FM FM.Parser

variable {c c' : Cfg}

/-! ## Neighbours among tokens and trivia -/

theorem attaches_types {ts : List Token} {us : List TokRef} (h : Attaches ts us) :
    (ts.filter fun t => !t.type.isTrivia).map Token.type = typesOf us := by
  induction h with
  | nil => rfl
  | @cons leading token rest refs hl ht _ ih =>
    have h1 : leading.filter (fun t => !t.type.isTrivia) = [] := by
      rw [List.filter_eq_nil_iff]; intro x hx; simp [hl x hx]
    have h2 : (restOfLine rest).1.filter (fun t => !t.type.isTrivia) = [] := by
      rw [List.filter_eq_nil_iff]; intro x hx; simp [restOfLine_trivia rest x hx]
    have h3 : rest.filter (fun t => !t.type.isTrivia) = (restOfLine rest).2.filter fun t => !t.type.isTrivia := by
      conv => lhs; rw [← restOfLine_append rest, List.filter_append, h2, List.nil_append]
    rw [List.filter_append, h1, List.nil_append, List.filter_cons, if_pos (by simp [ht]), h3, List.map_cons, ih]
    simp [typesOf]

theorem place_types : ∀ (before : Text) (tys : List TokenType), (place before tys).map Token.type = tys
  | _, [] => rfl
  | before, ty :: tys => by simp [place, place_types]

theorem apart_tail {b : Bool} {t : TokenType} {l : List TokenType} (h : Apart b (t :: l)) : Apart b l := by
  cases l with
  | nil => trivial
  | cons u l => exact h.2

theorem apart_of_filter {b : Bool} : ∀ (tys : List TokenType), Apart b (tys.filter fun t => !t.isTrivia) → Apart b tys
  | [], _ => trivial
  | [t], _ => trivial
  | t :: u :: tys, h => by
    have ih : Apart b (u :: tys) := by
      apply apart_of_filter
      rw [List.filter_cons] at h
      split at h
      · exact apart_tail h
      · exact h
    refine ⟨fun hh => ?_, ih⟩
    have ht : t.isTrivia = false := by cases t <;> first | rfl | cases hh.1
    have hu : u.isTrivia = false := by cases u <;> first | rfl | cases hh.2
    rw [List.filter_cons, if_pos (by simp [ht]), List.filter_cons, if_pos (by simp [hu])] at h
    exact h.1 hh

theorem attaches_apart {b : Bool} {tys : List TokenType} {us : List TokRef} (h : Attaches (place [] tys) us) (ha : Apart b (typesOf us)) : Apart b tys := by
  apply apart_of_filter
  rw [← attaches_types h] at ha
  have := place_types [] tys
  rw [← this, List.filter_map]
  simpa [Function.comp_def] using ha

/-! ## Symbols -/

/-- The symbols of later versions: `y` is the start of `z`, and goes on in `z` with the character. -/
theorem symbol_table : ∀ y z : Symbol, y.text.isPrefixOf z.text = true → y.text.length < z.text.length → z.gates ≠ [] → z.gates ≠ [.luau] →
    isWordChar z.text.head! = false →
    (startsWith goesWith (z.text.drop y.text.length) = true ∧
      ((z.gates.contains .cfxlua = true ∧ (opens true y = true ∨ opens false y = true ∧ (y = .lessThan ∧ z = .doubleLessThanEqual ∨ y = .greaterThan ∧ z = .doubleGreaterThanEqual))) ∨
        opens false y = true ∧ (z.gates.contains .lua53 = true ∨ z.gates.contains .lua52 = true))) ∨ y.gates = [.luau] := by
  have h : Symbol.all.all (fun y => Symbol.all.all fun z => decide (y.text.isPrefixOf z.text = true → y.text.length < z.text.length → z.gates ≠ [] → z.gates ≠ [.luau] →
    isWordChar z.text.head! = false →
    (startsWith goesWith (z.text.drop y.text.length) = true ∧
      ((z.gates.contains .cfxlua = true ∧ (opens true y = true ∨ opens false y = true ∧ (y = .lessThan ∧ z = .doubleLessThanEqual ∨ y = .greaterThan ∧ z = .doubleGreaterThanEqual))) ∨
        opens false y = true ∧ (z.gates.contains .lua53 = true ∨ z.gates.contains .lua52 = true))) ∨ y.gates = [.luau])) = true := by decide +kernel
  intro y z
  simp only [List.all_eq_true, decide_eq_true_eq] at h
  exact h y y.mem_all z z.mem_all

theorem opens_more (y : Symbol) (h : opens true y = true) (b : Bool) : opens b y = true := by
  cases b
  · simp only [opens, Bool.or_eq_true] at h ⊢
    exact h.elim .inl (fun h => absurd h (by simp))
  · exact h

theorem word_head (z : Symbol) (h : ¬ IsWord z.text) : isWordChar z.text.head! = false := by
  cases z <;> first | rfl | exact absurd (by simp [Symbol.text, IsWord, isWordChar]; done) h | exact absurd (by simp [Symbol.text, IsWord]; decide) h

/-- The versions that come with others. -/
theorem reach53 (h : c.Reachable) : (c.has .lua54 = true → c.has .lua53 = true) ∧ (c.has .lua53 = true → c.has .lua52 = true) := by
  simp only [has_iff]
  obtain ⟨h1, h2, _⟩ := api_bits h.2
  exact ⟨fun ⟨a, b⟩ => ⟨h.1.2.1 a, h1 b⟩, fun ⟨a, b⟩ => ⟨h.1.1 a, h2 b⟩⟩

/-- A text that starts with a character with which a symbol goes on starts with a symbol that does. -/
theorem lexes_next {bs : List BraceType} {rest : Text} {tys : List TokenType} (h : Lexes c bs rest tys) (hx : c.has .cfxlua = false)
    (hs : startsWith goesWith rest = true) : ∃ u tys', tys = u :: tys' ∧ closesType u = true := by
  cases h with
  | eof => cases hs
  | @token _ bs' ty rest tys hl _ =>
    refine ⟨ty, tys, rfl, ?_⟩
    have word : ∀ ch, isWordChar ch = true → goesWith ch = false := by
      intro ch h
      cases hg : goesWith ch with
      | false => rfl
      | true =>
        simp only [goesWith, List.contains_cons, List.contains_nil, Bool.or_false, Bool.or_eq_true, beq_iff_eq] at hg
        rcases hg with rfl | rfl | rfl | rfl | rfl | rfl <;> exact absurd h (by decide)
    cases ty with
    | eof | shebang => exact hl.elim
    | symbol y =>
      simp only [closesType, TokenType.display] at hs ⊢
      have : y.text ≠ [] := by cases y <;> simp [Symbol.text]
      cases ht : y.text with
      | nil => exact absurd ht this
      | cons a t => rw [ht] at hs; exact hs
    | identifier t =>
      exfalso
      have hw := hl.1
      cases t with
      | nil => exact hw.elim
      | cons a t =>
        have : goesWith a = true := hs
        rw [word a hw.1] at this
        cases this
    | number t =>
      exfalso
      have key : ∃ a t', t = a :: t' ∧ (isDigit a = true ∨ a = '.') := by
        rcases hl.1 with ⟨a, _, _, rfl, h, _⟩ | ⟨_, _, _, rfl, _⟩ | ⟨_, _, _, _, rfl, _⟩
        · rcases h with h | h
          · exact ⟨_, _, rfl, .inl (by simpa [isDigit] using h)⟩
          · exact ⟨_, _, rfl, .inr h.1⟩
        · exact ⟨_, _, rfl, .inl rfl⟩
        · exact ⟨_, _, rfl, .inl rfl⟩
      obtain ⟨a, t', rfl, h⟩ := key
      have hg : goesWith a = true := hs
      simp only [goesWith, List.contains_cons, List.contains_nil, Bool.or_false, Bool.or_eq_true, beq_iff_eq] at hg
      rcases hg with rfl | rfl | rfl | rfl | rfl | rfl <;> exact absurd h (by decide)
    | whitespace t =>
      exfalso
      rcases hl.1 with rfl | ⟨a, _, _, rfl, h, _⟩
      · cases hs
      · have hg : goesWith a = true := hs
        rcases h with rfl | rfl | rfl <;> cases hg
    | singleLineComment t => cases hs
    | multiLineComment n t => exact absurd hs (by simp [TokenType.display, startsWith]; decide)
    | cStyleComment t => have := hl.1; rw [hx] at this; cases this
    | stringLiteral t n q =>
      cases q <;> exact absurd hs (by simp [TokenType.display, startsWith, Quote.char]; try decide)
    | interpolated t k => cases k <;> cases hs

theorem Later.longest (h : Later c c') (hc : c.Reachable) {y : Symbol} {bs : List BraceType} {rest : Text} {tys : List TokenType} (hy : Enabled c y)
    (hl : Longest c y rest) (hn : Lexes c bs rest tys) (ha : c.has .cfxlua = false → Apart (c.has .lua53) (.symbol y :: tys)) : Longest c' y rest := by
  intro z hz hw hp
  refine Nat.le_of_not_lt fun hlt => ?_
  have hpre : y.text <+: z.text := by
    refine List.prefix_of_prefix_length_le (List.prefix_append y.text rest) hp (Nat.le_of_lt hlt)
  obtain ⟨w, hw'⟩ := hpre
  have hnot : ¬ Enabled c z := fun he => absurd (hl z he hw hp) (by omega)
  rw [enabled_iff] at hz hnot hy
  have reach := (reach53 hc).2
  have hlu := h.luau
  have hlu' : c.has .luau = false := h.same.trans hlu
  have hrest : w <+: rest := by
    rw [← hw'] at hp
    exact (List.prefix_append_right_inj _).1 hp
  have tab := symbol_table y z (by rw [← hw']; simp) hlt ?_ ?_ (word_head z hw)
  rotate_left
  · intro hg; rw [hg] at hnot; exact hnot rfl
  · intro hg; rw [hg] at hz; simp [Cfg.hasAny, hlu] at hz
  have hgate : ∀ v, z.gates.contains v = true → c.has v = false := by
    intro v hv
    cases hx : c.has v with
    | false => rfl
    | true =>
      refine absurd ?_ hnot
      rw [Cfg.hasAny_iff]
      exact .inr ⟨v, by simpa using hv, hx⟩
  rcases tab with ⟨hs, tab⟩ | hg
  · have hd : z.text.drop y.text.length = w := by rw [← hw']; simp
    rw [hd] at hs
    have hcfx : c.has .cfxlua = false := by
      cases hx : c.has .cfxlua with
      | false => rfl
      | true =>
        have h53 : c.has .lua53 = true := hc.lua53_of_cfxlua hx
        rcases tab with h | ⟨_, h | h⟩
        · rw [hgate _ h.1] at hx; cases hx
        · rw [hgate _ h] at h53; cases h53
        · rw [hgate _ h] at reach; exact absurd (reach h53) (by simp)
    have hop : opens (c.has .lua53) y = true := by
      rcases tab with ⟨_, h | ⟨h, h'⟩⟩ | ⟨h, h' | h'⟩
      · exact opens_more y h _
      · cases hx : c.has .lua53 with
        | false => exact h
        | true =>
          exfalso
          have key : ∀ d : Symbol, d.gates = [.lua53] → ¬ IsWord d.text → d.text <+: z.text → y.text.length < d.text.length → False := by
            intro d h1 h2 h3 h4
            have := hl d ((enabled_iff _ _).2 (by rw [h1]; simpa [Cfg.hasAny] using hx)) h2 (h3.trans hp)
            omega
          rcases h' with ⟨rfl, rfl⟩ | ⟨rfl, rfl⟩
          · exact key .doubleLessThan rfl (by simp [Symbol.text, IsWord]; decide) (by decide) (by decide)
          · exact key .doubleGreaterThan rfl (by simp [Symbol.text, IsWord]; decide) (by decide) (by decide)
      · rw [hgate _ h']; exact h
      · rw [hgate _ h'] at reach
        have : c.has .lua53 = false := by
          cases hx : c.has .lua53 with
          | false => rfl
          | true => exact absurd (reach hx) (by simp)
        rw [this]; exact h
    have hst : startsWith goesWith rest = true := by
      obtain ⟨v, rfl⟩ := hrest
      cases w with
      | nil => cases hs
      | cons a w => exact hs
    obtain ⟨u, tys', rfl, hu⟩ := lexes_next hn hcfx hst
    exact (ha hcfx).1 ⟨hop, hu⟩
  · rw [hg] at hy; simp [Cfg.hasAny, hlu'] at hy

/-! ## Numbers and strings -/

theorem Later.digit (h : Later c c') (ch : Char) : digitOr_ c' ch = digitOr_ c ch := by simp only [digitOr_, h.same]
theorem Later.hexDigit (h : Later c c') (ch : Char) : hexOr_ c' ch = hexOr_ c ch := by simp only [hexOr_, h.same]

theorem startsWith_false {p q : Char → Bool} {t : Text} (hp : startsWith p t = false) (h : ∀ ch, t.head? = some ch → p ch = false → q ch = false) :
    startsWith q t = false := by
  cases t with
  | nil => rfl
  | cons a t => exact h a rfl hp

theorem Later.suffix (h : Later c c') {t : Text} (ht : IntSuffix c t) : IntSuffix c' t := ⟨h.more _ ht.1, ht.2⟩

theorem Later.exponent (h : Later c c') {m : List Char} {t : Text} (ht : Exponent c m t) : Exponent c' m t := by
  obtain ⟨a, sign, d, ds, h1, h2, h3, h4, h5⟩ := ht
  exact ⟨a, sign, d, ds, h1, h2, h3, h4, fun ch hch => by rw [h.digit]; exact h5 ch hch⟩

theorem Later.number (h : Later c c') {t rest : Text} (hk : startsWith (goesOn c c' t) rest = false)
    (ht : Decimal c t rest ∨ Hexadecimal c t rest ∨ Binary c t rest) : Decimal c' t rest ∨ Hexadecimal c' t rest ∨ Binary c' t rest := by
  have hd : digitOr_ c' = digitOr_ c := funext h.digit
  have hx : hexOr_ c' = hexOr_ c := funext h.hexDigit
  have hkeep : ∀ ch, rest.head? = some ch → goesOn c c' t ch = false := by
    intro ch hch
    cases rest with
    | nil => cases hch
    | cons a r => cases hch; exact hk
  rcases ht with ⟨first, body, tail, rfl, h1, h2, h3⟩ | ⟨x, body, tail, rfl, h1, h2, h3⟩ | ⟨h0, b, body, tail, rfl, h1, h2, h3⟩
  · refine .inl ⟨first, body, tail, rfl, h1, hd ▸ h2, ?_⟩
    rcases h3 with ⟨rfl, h3, h4⟩ | ⟨h3, h4⟩ | h3
    · refine .inl ⟨rfl, startsWith_false h3 ?_, fun e => startsWith_false (h4 e) ?_⟩
      · intro ch hch hf
        have hg := hkeep ch hch
        simp only [goesOn, Bool.or_eq_false_iff] at hg
        simp only [hd, Bool.or_eq_false_iff] at hf ⊢
        refine ⟨hf.1, ?_⟩
        cases hj : c'.has .luajit with
        | false => rfl
        | true =>
          cases hv : c.has .luajit with
          | false => have := hg.2; rw [hj, hv] at this; simp only [Bool.not_false, Bool.true_and, Bool.or_eq_false_iff] at this ⊢; exact this.1
          | true => have := hf.2; rwa [hv] at this
      · intro ch hch hf
        have hg := hkeep ch hch
        simp only [goesOn, Bool.or_eq_false_iff] at hg
        simp only [h.luau, Bool.false_or, Bool.or_eq_false_iff] at hf ⊢
        refine ⟨hf.1, ?_⟩
        cases hj : c'.has .luajit with
        | false => rfl
        | true =>
          cases hv : c.has .luajit with
          | false =>
            have := hg.2
            rw [hj, hv, e] at this
            simp only [Bool.not_false, Bool.true_and, Bool.or_eq_false_iff, beq_self_eq_true] at this ⊢
            exact this.2
          | true =>
            have := hf.2
            rw [hv] at this
            simp only [Bool.or_true, Bool.true_and, Bool.or_eq_false_iff] at this ⊢
            exact this
    · exact .inr (.inl ⟨h.exponent h3, hd ▸ h4⟩)
    · exact .inr (.inr (h.suffix h3))
  · refine .inr (.inl ⟨x, body, tail, rfl, h1, ⟨hx ▸ h2.1, Nat.le_trans h2.2 ?_⟩, ?_⟩)
    · have := h.more .lua52
      cases hv : c.has .lua52 with
      | false => simp
      | true => simp [this hv]
    have hhex : isHex ('0' :: x :: (body ++ tail)) = true := by rcases h1 with rfl | rfl <;> rfl
    rcases h3 with ⟨rfl, h3, h4⟩ | ⟨h3, h4, h5, h6⟩ | h3
    · refine .inl ⟨rfl, h3, startsWith_false h4 ?_⟩
      intro ch hch hf
      have hg := hkeep ch hch
      simp only [goesOn, hhex, Bool.and_true, Bool.or_eq_false_iff] at hg
      simp only [hx, Bool.or_eq_false_iff] at hf ⊢
      refine ⟨⟨hf.1.1, ?_⟩, ?_⟩
      · cases hj : c'.has .lua52 with
        | false => rfl
        | true =>
          cases hv : c.has .lua52 with
          | false => have := hg.1; rw [hj, hv] at this; simpa using this
          | true => have := hf.1.2; rwa [hv] at this
      · cases hj : c'.has .luajit with
        | false => rfl
        | true =>
          cases hv : c.has .luajit with
          | false => have := hg.2; rw [hj, hv] at this; simp only [Bool.not_false, Bool.true_and, Bool.or_eq_false_iff] at this ⊢; exact this.1
          | true => have := hf.2; rwa [hv] at this
    · exact .inr (.inl ⟨h.more _ h3, h4, h.exponent h5, hd ▸ h6⟩)
    · exact .inr (.inr (h.suffix h3))
  · refine .inr (.inr ⟨h0.imp (h.more _) (h.more _), b, body, tail, rfl, h1, h2, ?_⟩)
    rcases h3 with ⟨rfl, h3, h4⟩ | h3
    · refine .inl ⟨rfl, h3, startsWith_false h4 ?_⟩
      intro ch hch hf
      have hg := hkeep ch hch
      simp only [goesOn, Bool.or_eq_false_iff] at hg
      simp only [Bool.or_eq_false_iff] at hf ⊢
      refine ⟨hf.1, ?_⟩
      cases hj : c'.has .luajit with
      | false => rfl
      | true =>
          cases hv : c.has .luajit with
          | false => have := hg.2; rw [hj, hv] at this; simp only [Bool.not_false, Bool.true_and, Bool.or_eq_false_iff] at this ⊢; exact this.1
          | true => have := hf.2; rwa [hv] at this
    · exact .inr (h.suffix h3)

theorem Later.string (h : Later c c') {q : Char} {z : Bool} {t : Text} (ht : StringBody c q z t) : ∀ {z' : Bool}, (z = true → z' = true) → StringBody c' q z' t := by
  induction ht with
  | nil => intro z' _; exact .nil
  | char h1 h2 h3 h4 _ ih => intro z' hz; exact .char h1 h2 h3 h4 (ih hz)
  | escape _ ih =>
    intro z' hz
    refine .escape (ih ?_)
    simp only [Bool.or_eq_true, Bool.and_eq_true]
    rintro (((h1 | h1) | h1) | ⟨h1, h2⟩)
    · exact .inl (.inl (.inl (hz h1)))
    · exact .inl (.inl (.inr (h.more _ h1)))
    · exact .inl (.inr (h.more _ h1))
    · exact .inr ⟨h.more _ h1, h2⟩
  | newline h1 _ ih =>
    intro z' hz
    rw [hz rfl]
    exact .newline h1 (ih id)

/-! ## Tokens -/

theorem display_ne {bs bs' : List BraceType} {ty : TokenType} {rest : Text} (h : Lexeme c bs ty rest bs') : ty.display ≠ [] := by
  cases ty with
  | eof | shebang => exact h.elim
  | symbol y => cases y <;> simp [TokenType.display, Symbol.text]
  | identifier t => rintro rfl; exact h.1.elim
  | number t =>
    rintro rfl
    rcases h.1 with ⟨_, _, _, e, _⟩ | ⟨_, _, _, e, _⟩ | ⟨_, _, _, _, e, _⟩ <;> cases e
  | whitespace t => rintro rfl; rcases h.1 with e | ⟨_, _, _, e, _⟩ <;> cases e
  | singleLineComment t => simp [TokenType.display]
  | multiLineComment n t => simp [TokenType.display]
  | cStyleComment t => simp [TokenType.display]
  | stringLiteral t n q => cases q <;> simp [TokenType.display, Quote.char]
  | interpolated t k => cases k <;> simp [TokenType.display]

theorem lexes_starts {bs : List BraceType} {rest : Text} {u : TokenType} {tys : List TokenType} (h : Lexes c bs rest (u :: tys)) (p : Char → Bool) :
    startsWith p rest = startsWith p u.display := by
  cases h with
  | eof => rfl
  | token hl _ =>
    have := display_ne hl
    cases hd : u.display with
    | nil => exact absurd hd this
    | cons a t => rfl

theorem Later.lexeme (h : Later c c') (hc : c.Reachable) {bs bs' : List BraceType} {ty : TokenType} {rest : Text} {tys : List TokenType}
    (hl : Lexeme c bs ty rest bs') (hn : Lexes c bs' rest tys) (hk : Keeps c c' (ty :: tys))
    (ha : c.has .cfxlua = false → Apart (c.has .lua53) (ty :: tys)) : Lexeme c' bs ty rest bs' := by
  cases ty with
  | eof | shebang => exact hl.elim
  | identifier t => exact ⟨hl.1, fun hr => hl.2.1 (hk.1 t (by simp) hr), hl.2.2⟩
  | symbol y =>
    obtain ⟨h1, h2, h3, h4, h5⟩ := hl
    refine ⟨(enabled_iff _ _).2 (h.any ((enabled_iff _ _).1 h1)), h2, fun hw => h.longest hc h1 (h3 hw) hn ha, ?_, ?_⟩
    · cases y <;> first | exact h4 | skip
      intro _ hs
      cases hx : c.has .cfxlua with
      | true => exact h4 hx hs
      | false =>
        cases rest with
        | nil => cases hs
        | cons a r =>
          cases hs
          obtain ⟨u, tys', rfl, hu⟩ := lexes_next hn hx rfl
          exact (ha hx).1 ⟨by cases c.has .lua53 <;> rfl, hu⟩
    · cases y <;> first | exact h5 | (simp only [BracesOf, h.same] at h5 ⊢; exact h5)
  | number t =>
    refine ⟨h.number ?_ hl.1, hl.2⟩
    cases tys with
    | nil => cases hn
    | cons u tys => rw [lexes_starts hn]; exact hk.2 [] t u tys rfl
  | whitespace t => exact hl
  | singleLineComment t => exact hl
  | multiLineComment n t => exact hl
  | cStyleComment t => exact ⟨h.more _ hl.1, hl.2⟩
  | stringLiteral t n q =>
    cases q with
    | brackets => exact hl
    | double => exact ⟨hl.1, h.string hl.2.1 id, hl.2.2⟩
    | single => exact ⟨hl.1, h.string hl.2.1 id, hl.2.2⟩
    | backtick => exact ⟨hl.1, h.feat ▸ hl.2.1, h.luau, h.string hl.2.2.2.1 id, hl.2.2.2.2⟩
  | interpolated t k => have := h.more _ hl.1; rw [h.luau] at this; cases this

theorem Keeps.tail {ty : TokenType} {tys : List TokenType} (h : Keeps c c' (ty :: tys)) : Keeps c c' tys :=
  ⟨fun x hx => h.1 x (by simp [hx]), fun a t u b e => h.2 (ty :: a) t u b (by rw [e]; rfl)⟩

theorem Later.lexes (h : Later c c') (hc : c.Reachable) {bs : List BraceType} {source : Text} {tys : List TokenType} (hl : Lexes c bs source tys)
    (hk : Keeps c c' tys) (ha : c.has .cfxlua = false → Apart (c.has .lua53) tys) : Lexes c' bs source tys := by
  induction hl with
  | eof => exact .eof
  | token h1 h2 ih => exact .token (h.lexeme hc h1 h2 hk ha) (ih hk.tail fun hx => apart_tail (ha hx))

/-- `Keeps`, as a test. -/
def keeps (c c' : Cfg) : List TokenType → Bool
  | [] => true
  | .identifier x :: tys => (decide (x ≠ c!"goto") || c.has .lua52 || c.has .luajit) && keeps c c' tys
  | .number t :: u :: tys => !startsWith (goesOn c c' t) u.display && keeps c c' (u :: tys)
  | _ :: tys => keeps c c' tys

theorem keeps_sound : ∀ (tys : List TokenType), keeps c c' tys = true → Keeps c c' tys
  | [], _ => ⟨nofun, fun a t u b e => by cases a <;> cases e⟩
  | ty :: tys, h => by
    have ih : keeps c c' tys = true := by
      unfold keeps at h
      split at h
      · rename_i e; cases e
      · rename_i e; cases e; simp only [Bool.and_eq_true] at h; exact h.2
      · rename_i e; cases e; simp only [Bool.and_eq_true] at h; exact h.2
      · rename_i e; cases e; exact h
    have ih := keeps_sound tys ih
    refine ⟨fun x hx hr => ?_, fun a t u b e => ?_⟩
    · rcases List.mem_cons.1 hx with rfl | hx
      · simp only [keeps, Bool.and_eq_true, Bool.or_eq_true, decide_eq_true_eq] at h
        refine hr.imp id fun hr => ⟨hr.1, ?_⟩
        rcases h.1 with (h | h) | h
        · exact absurd hr.1 h
        · exact .inl h
        · exact .inr h
      · exact ih.1 x hx hr
    · cases a with
      | nil =>
        cases e
        simp only [keeps, Bool.and_eq_true, Bool.not_eq_true'] at h
        exact h.1
      | cons x a => cases e; exact ih.2 a t u b rfl

end FM.Spec
