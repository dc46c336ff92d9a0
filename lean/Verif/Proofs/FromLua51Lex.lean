import Verif.Proofs.LaterLex
import Verif.Proofs.FromLua51

/-!
# The tokens of programs of Lua 5.1 in Luau
-/

namespace FM.Spec
open FM FM.Parser

variable {c c' : Cfg}

/-- The symbols of later versions: `y` of Lua 5.1 is the start of `z`, and goes on in `z` with the character. -/
theorem symbol_table51 : ∀ y z : Symbol, y.text.isPrefixOf z.text = true → y.text.length < z.text.length → y.gates = [] → z.gates ≠ [] →
    isWordChar z.text.head! = false → (startsWith goesWith (z.text.drop y.text.length) = true ∧ opens false y = true) ∨ y = .dot ∧ z = .twoDotsEqual := by
  have h : Symbol.all.all (fun y => Symbol.all.all fun z => decide (y.text.isPrefixOf z.text = true → y.text.length < z.text.length → y.gates = [] → z.gates ≠ [] →
    isWordChar z.text.head! = false → (startsWith goesWith (z.text.drop y.text.length) = true ∧ opens false y = true) ∨ y = .dot ∧ z = .twoDotsEqual)) = true := by decide +kernel
  intro y z
  simp only [List.all_eq_true, decide_eq_true_eq] at h
  exact h y y.mem_all z z.mem_all

theorem AddsLuau.gates (h : AddsLuau c c') {y : Symbol} (hy : Enabled c y) : y.gates = [] := by
  rw [enabled_iff, Cfg.hasAny_iff] at hy
  rcases hy with hy | ⟨v, -, hv⟩
  · exact hy
  · rw [h.lua51] at hv; cases hv

theorem AddsLuau.longest (h : AddsLuau c c') {y : Symbol} {bs : List BraceType} {rest : Text} {tys : List TokenType} (hy : Enabled c y)
    (hl : Longest c y rest) (hn : Lexes c bs rest tys) (ha : Apart false (.symbol y :: tys)) : Longest c' y rest := by
  intro z hz hw hp
  refine Nat.le_of_not_lt fun hlt => ?_
  have hpre : y.text <+: z.text := by
    refine List.prefix_of_prefix_length_le (List.prefix_append y.text rest) hp (Nat.le_of_lt hlt)
  obtain ⟨w, hw'⟩ := hpre
  have hnot : z.gates ≠ [] := fun he => absurd (hl z ((enabled_iff _ _).2 (by rw [he]; rfl)) hw hp) (by omega)
  have hrest : w <+: rest := by
    rw [← hw'] at hp
    exact (List.prefix_append_right_inj _).1 hp
  rcases symbol_table51 y z (by rw [← hw']; simp) hlt (h.gates hy) hnot (word_head z hw) with ⟨hs, hop⟩ | ⟨rfl, rfl⟩
  rotate_left
  · have := hl .twoDots ((enabled_iff _ _).2 rfl) (by simp [Symbol.text, IsWord]; decide) (List.IsPrefix.trans (by decide) hp)
    exact absurd this (by decide)
  have hd : z.text.drop y.text.length = w := by rw [← hw']; simp
  rw [hd] at hs
  have hst : startsWith goesWith rest = true := by
    obtain ⟨v, rfl⟩ := hrest
    cases w with
    | nil => cases hs
    | cons a w => exact hs
  obtain ⟨u, tys', rfl, hu⟩ := lexes_next hn (h.lua51 _) hst
  exact ha.1 ⟨hop, hu⟩

theorem AddsLuau.digit (h : AddsLuau c c') {ch : Char} (hd : digitOr_ c ch = true) : digitOr_ c' ch = true := by
  simp only [digitOr_, h.lua51, Bool.false_and, Bool.or_false] at hd
  simp only [digitOr_, hd, Bool.true_or]

theorem AddsLuau.hexDigit (h : AddsLuau c c') {ch : Char} (hd : hexOr_ c ch = true) : hexOr_ c' ch = true := by
  simp only [hexOr_, h.lua51, Bool.false_and, Bool.or_false] at hd
  simp only [hexOr_, hd, Bool.true_or]

theorem AddsLuau.no_digit (h : AddsLuau c c') {ch : Char} (hd : digitOr_ c ch = false) (hu : (ch == '_') = false) : digitOr_ c' ch = false := by
  simp only [digitOr_, h.lua51, Bool.false_and, Bool.or_false] at hd
  simp only [digitOr_, hd, hu, Bool.and_false, Bool.or_self]

theorem AddsLuau.no_hexDigit (h : AddsLuau c c') {ch : Char} (hd : hexOr_ c ch = false) (hu : (ch == '_') = false) : hexOr_ c' ch = false := by
  simp only [hexOr_, h.lua51, Bool.false_and, Bool.or_false] at hd
  simp only [hexOr_, hd, hu, Bool.and_false, Bool.or_self]

theorem AddsLuau.exponent (h : AddsLuau c c') {m : List Char} {t : Text} (ht : Exponent c m t) : Exponent c' m t := by
  obtain ⟨a, sign, d, ds, h1, h2, h3, h4, h5⟩ := ht
  exact ⟨a, sign, d, ds, h1, h2, h3, h4, fun ch hch => h.digit (h5 ch hch)⟩

theorem AddsLuau.number (h : AddsLuau c c') {t rest : Text} (hk : startsWith (goesOnLuau c c' t) rest = false)
    (ht : Decimal c t rest ∨ Hexadecimal c t rest ∨ Binary c t rest) : Decimal c' t rest ∨ Hexadecimal c' t rest ∨ Binary c' t rest := by
  have hkeep : ∀ ch, rest.head? = some ch → goesOn c c' t ch = false ∧ (ch == '_') = false ∧ (t == c!"0" && (ch == 'b' || ch == 'B')) = false := by
    intro ch hch
    cases rest with
    | nil => cases hch
    | cons a r =>
      cases hch
      have : goesOnLuau c c' t ch = false := hk
      simpa only [goesOnLuau, Bool.or_eq_false_iff, and_assoc] using this
  have nojit : ∀ tail, ¬ IntSuffix c tail := fun tail hi => by have := hi.1; rw [h.lua51] at this; cases this
  rcases ht with ⟨first, body, tail, rfl, h1, h2, h3⟩ | ⟨x, body, tail, rfl, h1, h2, h3⟩ | ⟨h0, -⟩
  · refine .inl ⟨first, body, tail, rfl, h1, ⟨fun ch hch => (h2.1 ch hch).imp h.digit id, h2.2⟩, ?_⟩
    rcases h3 with ⟨rfl, h3, h4⟩ | ⟨h3, h4⟩ | h3
    · refine .inl ⟨rfl, startsWith_false h3 ?_, fun e => startsWith_false (h4 e) ?_⟩
      · intro ch hch hf
        obtain ⟨hg, hu, -⟩ := hkeep ch hch
        simp only [goesOn, h.lua51, Bool.not_false, Bool.true_and, Bool.or_eq_false_iff] at hg
        simp only [Bool.or_eq_false_iff] at hf ⊢
        refine ⟨⟨⟨⟨h.no_digit hf.1.1.1.1 hu, hf.1.1.1.2⟩, hf.1.1.2⟩, hf.1.2⟩, ?_⟩
        cases hj : c'.has .luajit with
        | false => rfl
        | true =>
          have := hg.2
          rw [hj] at this
          simp only [Bool.true_and, Bool.or_eq_false_iff] at this ⊢
          exact this.1
      · intro ch hch hf
        obtain ⟨-, -, hb⟩ := hkeep ch hch
        rw [e] at hb
        simp only [beq_self_eq_true, Bool.true_and] at hb
        simp only [hb, Bool.and_false, Bool.or_false] at hf ⊢
        exact hf
    · exact .inr (.inl ⟨h.exponent h3, startsWith_false h4 fun ch hch hf => h.no_digit hf (hkeep ch hch).2.1⟩)
    · exact (nojit _ h3).elim
  · refine .inr (.inl ⟨x, body, tail, rfl, h1, ⟨fun ch hch => (h2.1 ch hch).imp h.hexDigit id, Nat.le_trans h2.2 ?_⟩, ?_⟩)
    · rw [h.lua51]; simp
    have hhex : isHex ('0' :: x :: (body ++ tail)) = true := by rcases h1 with rfl | rfl <;> rfl
    rcases h3 with ⟨rfl, h3, h4⟩ | ⟨h3, -⟩ | h3
    · refine .inl ⟨rfl, h3, startsWith_false h4 ?_⟩
      intro ch hch hf
      obtain ⟨hg, hu, -⟩ := hkeep ch hch
      simp only [goesOn, hhex, h.lua51, Bool.not_false, Bool.true_and, Bool.and_true, Bool.or_eq_false_iff] at hg
      simp only [Bool.or_eq_false_iff] at hf ⊢
      refine ⟨⟨h.no_hexDigit hf.1.1 hu, ?_⟩, ?_⟩
      · cases hj : c'.has .lua52 with
        | false => rfl
        | true => have := hg.1; rw [hj] at this; simpa using this
      · cases hj : c'.has .luajit with
        | false => rfl
        | true => have := hg.2; rw [hj] at this; simp only [Bool.true_and, Bool.or_eq_false_iff] at this ⊢; exact this.1
    · rw [h.lua51] at h3; cases h3
    · exact (nojit _ h3).elim
  · rw [h.lua51, h.lua51] at h0; rcases h0 with h0 | h0 <;> cases h0

theorem AddsLuau.string (h : AddsLuau c c') {q : Char} {z : Bool} {t : Text} (ht : StringBody c q z t) : ∀ {z' : Bool}, (z = true → z' = true) → StringBody c' q z' t := by
  induction ht with
  | nil => intro z' _; exact .nil
  | char h1 h2 h3 h4 _ ih => intro z' hz; exact .char h1 h2 h3 h4 (ih hz)
  | escape _ ih =>
    intro z' hz
    refine .escape (ih ?_)
    simp only [Bool.or_eq_true, Bool.and_eq_true]
    rintro (((h1 | h1) | h1) | ⟨h1, h2⟩)
    · exact .inl (.inl (.inl (hz h1)))
    · exact .inl (.inl (.inr (h.more h1)))
    · exact .inl (.inr (h.more h1))
    · exact .inr ⟨h.more h1, h2⟩
  | newline h1 _ ih =>
    intro z' hz
    rw [hz rfl]
    exact .newline h1 (ih id)

/-! ## Tokens -/

theorem AddsLuau.lexeme (h : AddsLuau c c') {bs bs' : List BraceType} {ty : TokenType} {rest : Text} {tys : List TokenType}
    (hl : Lexeme c bs ty rest bs') (hn : Lexes c bs' rest tys) (hk : KeepsLuau c c' (ty :: tys)) (ha : Apart false (ty :: tys))
    {bs₁ : List BraceType} (hb : ∀ b ∈ bs₁, b = .normal) : ∃ bs₂, (∀ b ∈ bs₂, b = .normal) ∧ Lexeme c' bs₁ ty rest bs₂ := by
  cases ty with
  | eof | shebang => exact hl.elim
  | identifier t => exact ⟨bs₁, hb, hl.1, fun hr => hl.2.1 (hk.1 t (by simp) hr), hl.2.2.1, rfl⟩
  | symbol y =>
    obtain ⟨h1, h2, h3, h4, -⟩ := hl
    have h5 : ∃ bs₂, (∀ b ∈ bs₂, b = .normal) ∧ BracesOf c' y bs₁ bs₂ := by
      cases y <;> first | exact ⟨bs₁, hb, rfl⟩ | skip
      · refine ⟨.normal :: bs₁, ?_, by simp [BracesOf, h.luau]⟩
        intro b hb'
        rcases List.mem_cons.1 hb' with rfl | hb'
        · rfl
        · exact hb b hb'
      · refine ⟨bs₁.tail, fun b hb' => hb b (List.mem_of_mem_tail hb'), ?_⟩
        simp only [BracesOf, h.luau, if_true, and_true]
        intro e
        have := hb _ (List.mem_of_head? e)
        cases this
    obtain ⟨bs₂, hb₂, h5⟩ := h5
    refine ⟨bs₂, hb₂, (enabled_iff _ _).2 (h.any ((enabled_iff _ _).1 h1)), h2, fun hw => h.longest h1 (h3 hw) hn ha, ?_, h5⟩
    cases y <;> first | exact h4 | skip
    intro _ hs
    cases rest with
    | nil => cases hs
    | cons a r =>
      cases hs
      obtain ⟨u, tys', rfl, hu⟩ := lexes_next hn (h.lua51 _) rfl
      exact ha.1 ⟨rfl, hu⟩
  | number t =>
    refine ⟨bs₁, hb, h.number ?_ hl.1, rfl⟩
    cases tys with
    | nil => cases hn
    | cons u tys => rw [lexes_starts hn]; exact hk.2.1 [] t u tys rfl
  | whitespace t => exact ⟨bs₁, hb, hl.1, rfl⟩
  | singleLineComment t => exact ⟨bs₁, hb, hl.1, hl.2.1, hl.2.2.1, rfl⟩
  | multiLineComment n t => exact ⟨bs₁, hb, hl.1, rfl⟩
  | cStyleComment t => have := hl.1; rw [h.lua51] at this; cases this
  | stringLiteral t n q =>
    cases q with
    | brackets => exact ⟨bs₁, hb, hl.1, rfl⟩
    | double => exact ⟨bs₁, hb, hl.1, h.string hl.2.1 id, rfl⟩
    | single => exact ⟨bs₁, hb, hl.1, h.string hl.2.1 id, rfl⟩
    | backtick => exact absurd (by simp) (hk.2.2 t n)
  | interpolated t k => have := hl.1; rw [h.lua51] at this; cases this

theorem KeepsLuau.tail {ty : TokenType} {tys : List TokenType} (h : KeepsLuau c c' (ty :: tys)) : KeepsLuau c c' tys :=
  ⟨fun x hx => h.1 x (by simp [hx]), fun a t u b e => h.2.1 (ty :: a) t u b (by rw [e]; rfl), fun t n hm => h.2.2 t n (by simp [hm])⟩

theorem AddsLuau.lexes (h : AddsLuau c c') {bs : List BraceType} {source : Text} {tys : List TokenType} (hl : Lexes c bs source tys)
    (hk : KeepsLuau c c' tys) (ha : Apart false tys) : ∀ {bs₁ : List BraceType}, (∀ b ∈ bs₁, b = .normal) → Lexes c' bs₁ source tys := by
  induction hl with
  | eof => intro _ _; exact .eof
  | token h1 h2 ih =>
    intro bs₁ hb
    obtain ⟨bs₂, hb₂, h3⟩ := h.lexeme h1 h2 hk ha hb
    exact .token h3 (ih hk.tail (apart_tail ha) hb₂)

theorem lexes_enabled {bs : List BraceType} {source : Text} {tys : List TokenType} (hl : Lexes c bs source tys) {y : Symbol}
    (hy : .symbol y ∈ tys) : Enabled c y := by
  induction hl with
  | eof => simp at hy
  | token h1 _ ih =>
    rcases List.mem_cons.1 hy with e | hy
    · subst e; exact h1.1
    · exact ih hy

/-- `KeepsLuau`, as a test. -/
def keepsLuau (c c' : Cfg) : List TokenType → Bool
  | [] => true
  | .identifier x :: tys => (decide (x ≠ c!"goto") || !(c'.has .lua52 || c'.has .luajit)) && keepsLuau c c' tys
  | .number t :: u :: tys => !startsWith (goesOnLuau c c' t) u.display && keepsLuau c c' (u :: tys)
  | .stringLiteral _ _ .backtick :: _ => false
  | _ :: tys => keepsLuau c c' tys

theorem keepsLuau_sound : ∀ (tys : List TokenType), keepsLuau c c' tys = true → KeepsLuau c c' tys
  | [], _ => ⟨nofun, fun a t u b e => (by cases a <;> cases e), nofun⟩
  | ty :: tys, h => by
    have ih : keepsLuau c c' tys = true := by
      unfold keepsLuau at h
      split at h
      · rename_i e; cases e
      · rename_i e; cases e; simp only [Bool.and_eq_true] at h; exact h.2
      · rename_i e; cases e; simp only [Bool.and_eq_true] at h; exact h.2
      · cases h
      · rename_i e; cases e; exact h
    have ih := keepsLuau_sound tys ih
    refine ⟨fun x hx hr => ?_, fun a t u b e => ?_, fun t n hm => ?_⟩
    · rcases List.mem_cons.1 hx with rfl | hx
      · simp only [keepsLuau, Bool.and_eq_true, Bool.or_eq_true, decide_eq_true_eq, Bool.not_eq_true', Bool.or_eq_false_iff] at h
        refine hr.imp id fun hr => ⟨hr.1, ?_⟩
        rcases h.1 with h | h
        · exact absurd hr.1 h
        · have := hr.2; rw [h.1, h.2] at this; simp at this
      · exact ih.1 x hx hr
    · cases a with
      | nil =>
        cases e
        simp only [keepsLuau, Bool.and_eq_true, Bool.not_eq_true'] at h
        exact h.1
      | cons x a => cases e; exact ih.2.1 a t u b rfl
    · rcases List.mem_cons.1 hm with rfl | hm
      · cases h
      · exact ih.2.2 t n hm

end FM.Spec
