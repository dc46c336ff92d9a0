import Verif.Spec.Lexical
import Verif.Proofs.Respace

/-! Helper lemmas for C51: numbers. -/

namespace FM
open Spec

variable {c : Cfg} {st p : Position} {ty : TokenType} {rest : Text}

/-- The type of a token read without an error, and the text left. -/
def out (r : ReadRes) : Option (TokenType × Text) :=
  match r.1 with
  | .ok t => some (t.type, r.2.rest)
  | _ => none

@[simp] theorem out_create {s : Src} : out (create st ty s) = some (ty, s.rest) := rfl

@[simp] theorem out_invalid {l : List Char} {n : Text} : out (eatInvalidNumber st l p n) = none := by
  have := eatInvalidNumber_not_ok (st := st) l p n
  unfold out
  split
  · rename_i t h
    exact absurd h (this t)
  · rfl

theorem digitOr_eq (ch : Char) : (isDigit ch || (c.luau && ch == '_')) = digitOr_ c ch := rfl

theorem exponentLoop_out {l : List Char} {n : Text} : out (exponentLoop c st l p n) = some (ty, rest) ↔
    ∃ ds, l = ds ++ rest ∧ ty = .number (n ++ ds) ∧ (∀ ch ∈ ds, digitOr_ c ch = true) ∧ startsWith (digitOr_ c) rest = false := by
  induction l generalizing p n with
  | nil =>
    simp only [exponentLoop, out_create, Option.some.injEq, Prod.mk.injEq]
    constructor
    · rintro ⟨rfl, rfl⟩; exact ⟨[], by simp [startsWith]⟩
    · rintro ⟨ds, h, rfl, -, -⟩
      obtain ⟨rfl, rfl⟩ := List.append_eq_nil_iff.1 h.symm
      simp
  | cons ch l ih =>
    unfold exponentLoop
    rw [digitOr_eq]
    split
    · rename_i hd
      rw [ih]
      constructor
      · rintro ⟨ds, rfl, rfl, h1, h2⟩
        exact ⟨ch :: ds, by simp, by simp, by simpa [hd] using h1, h2⟩
      · rintro ⟨ds, h, rfl, h1, h2⟩
        cases ds with
        | nil => cases h; simp [startsWith, hd] at h2
        | cons x ds => cases h; exact ⟨ds, rfl, by simp, fun y hy => h1 y (.tail _ hy), h2⟩
    · rename_i hd
      rw [out_create]
      simp only [Option.some.injEq, Prod.mk.injEq]
      constructor
      · rintro ⟨rfl, rfl⟩; exact ⟨[], by simp [startsWith, hd]⟩
      · rintro ⟨ds, h, rfl, h1, h2⟩
        cases ds with
        | nil => simpa using h
        | cons x ds => cases h; exact absurd (h1 _ (.head _)) hd

theorem exponentDigits_out {l : List Char} {n : Text} : out (exponentDigits c st l p n) = some (ty, rest) ↔
    ∃ d ds, l = d :: (ds ++ rest) ∧ ty = .number (n ++ d :: ds) ∧ ('0' ≤ d ∧ d ≤ '9') ∧ (∀ ch ∈ ds, digitOr_ c ch = true) ∧
      startsWith (digitOr_ c) rest = false := by
  unfold exponentDigits
  split
  · rename_i h
    simp only [out_invalid, reduceCtorEq, false_iff]
    rintro ⟨d, ds, rfl, -, h1, -⟩
    simp [headIs, isDigit, h1] at h
  · rename_i h
    rw [exponentLoop_out]
    constructor
    · rintro ⟨ds, rfl, rfl, h1, h2⟩
      cases ds with
      | nil =>
        exfalso
        simp only [Bool.not_eq_true', Bool.not_eq_false] at h
        cases rest with
        | nil => cases h
        | cons x r =>
          have h : isDigit x = true := h
          have h2 : digitOr_ c x = false := h2
          rw [← digitOr_eq, h] at h2
          cases h2
      | cons d ds =>
        refine ⟨d, ds, rfl, rfl, ?_, fun x hx => h1 x (.tail _ hx), h2⟩
        simpa [headIs, isDigit] using h
    · rintro ⟨d, ds, rfl, rfl, h1, h2, h3⟩
      refine ⟨d :: ds, rfl, rfl, fun x hx => ?_, h3⟩
      rcases List.mem_cons.1 hx with rfl | hx
      · rw [← digitOr_eq]; simp [isDigit, h1]
      · exact h2 x hx

theorem sign_not_digit {d : Char} (h : '0' ≤ d ∧ d ≤ '9') : d ≠ '+' ∧ d ≠ '-' := by
  constructor <;> (rintro rfl; revert h; decide)

theorem readExponentPart_out {marks : List Char} {m : Char} (hm : m ∈ marks) {r : List Char} {n : Text} :
    out (readExponentPart c st m r p n) = some (ty, rest) ↔
    ∃ tail, m :: r = tail ++ rest ∧ ty = .number (n ++ tail) ∧ Exponent c marks tail ∧ startsWith (digitOr_ c) rest = false := by
  unfold readExponentPart
  cases r with
  | nil =>
    simp only [exponentDigits_out, reduceCtorEq, false_and, exists_false, false_iff]
    rintro ⟨tail, h, -, ⟨m', sign, d, ds, rfl, -⟩, -⟩
    simp at h
  | cons ch r =>
    dsimp only
    split
    · rename_i hs
      rw [exponentDigits_out]
      constructor
      · rintro ⟨d, ds, rfl, rfl, h1, h2, h3⟩
        refine ⟨m :: ch :: d :: ds, by simp, by simp, ⟨m, [ch], d, ds, rfl, hm, ?_, h1, h2⟩, h3⟩
        rcases hs with rfl | rfl <;> simp
      · rintro ⟨tail, h, rfl, ⟨m', sign, d, ds, rfl, -, hsg, h1, h2⟩, h3⟩
        simp only [List.mem_cons, List.not_mem_nil, or_false] at hsg
        simp only [List.cons_append, List.cons.injEq] at h
        obtain ⟨rfl, h⟩ := h
        rcases hsg with rfl | rfl | rfl
        · simp only [List.nil_append, List.cons_append, List.cons.injEq] at h
          obtain ⟨rfl, -⟩ := h
          have := sign_not_digit h1
          simp_all
        all_goals
          simp only [List.nil_append, List.cons_append, List.cons.injEq] at h
          obtain ⟨rfl, rfl⟩ := h
          exact ⟨d, ds, rfl, by simp, h1, h2, h3⟩
    · rename_i hs
      rw [exponentDigits_out]
      constructor
      · rintro ⟨d, ds, h, rfl, h1, h2, h3⟩
        cases h
        exact ⟨m :: ch :: ds, by simp, by simp, ⟨m, [], ch, ds, rfl, hm, by simp, h1, h2⟩, h3⟩
      · rintro ⟨tail, h, rfl, ⟨m', sign, d, ds, rfl, -, hsg, h1, h2⟩, h3⟩
        simp only [List.mem_cons, List.not_mem_nil, or_false] at hsg
        simp only [List.cons_append, List.cons.injEq] at h
        obtain ⟨rfl, h⟩ := h
        rcases hsg with rfl | rfl | rfl
        · simp only [List.nil_append, List.cons_append, List.cons.injEq] at h
          obtain ⟨rfl, rfl⟩ := h
          exact ⟨ch, ds, rfl, by simp, h1, h2, h3⟩
        all_goals
          simp only [List.nil_append, List.cons_append, List.cons.injEq] at h
          obtain ⟨rfl, rfl⟩ := h
          simp at hs

theorem isU_iff {ch : Char} : isU ch = true ↔ ch = 'u' ∨ ch = 'U' := by simp [isU]
theorem isL_iff {ch : Char} : isL ch = true ↔ ch = 'l' ∨ ch = 'L' := by simp [isL]
theorem isI_iff {ch : Char} : isI ch = true ↔ ch = 'i' ∨ ch = 'I' := by simp [isI]

theorem suffixMark_eq (ch : Char) : (isU ch || isL ch || isI ch) = suffixMark ch := by
  rw [Bool.eq_iff_iff]
  simp [suffixMark, isU, isL, isI, or_assoc]

/-- `LL` or `I`. -/
def ShortSuffix (t : Text) : Prop := (∃ v w, isL v = true ∧ isL w = true ∧ t = [v, w]) ∨ ∃ i, isI i = true ∧ t = [i]

theorem intSuffix_iff {t : Text} : IntSuffix c t ↔ c.luajit = true ∧ (ShortSuffix t ∨ ∃ u t', isU u = true ∧ startsWith isL t' = true ∧ ShortSuffix t' ∧ t = u :: t') := by
  unfold IntSuffix ShortSuffix
  refine and_congr_right fun _ => ⟨?_, ?_⟩
  · rintro ⟨u, v, w, i, hu, hv, hw, hi, ht⟩
    rw [← isU_iff] at hu
    rw [← isL_iff] at hv hw
    rw [← isI_iff] at hi
    simp only [List.mem_cons, List.not_mem_nil, or_false] at ht
    rcases ht with rfl | rfl | rfl
    · exact .inl (.inl ⟨v, w, hv, hw, rfl⟩)
    · exact .inr ⟨u, [v, w], hu, by simp [startsWith, hv], .inl ⟨v, w, hv, hw, rfl⟩, rfl⟩
    · exact .inl (.inr ⟨i, hi, rfl⟩)
  · rintro ((⟨v, w, hv, hw, rfl⟩ | ⟨i, hi, rfl⟩) | ⟨u, t', hu, hs, (⟨v, w, hv, hw, rfl⟩ | ⟨i, hi, rfl⟩), rfl⟩)
    · exact ⟨'u', v, w, 'i', .inl rfl, isL_iff.1 hv, isL_iff.1 hw, .inl rfl, by simp⟩
    · exact ⟨'u', 'l', 'l', i, .inl rfl, .inl rfl, .inl rfl, isI_iff.1 hi, by simp⟩
    · exact ⟨u, v, w, 'i', isU_iff.1 hu, isL_iff.1 hv, isL_iff.1 hw, .inl rfl, by simp⟩
    · have hs : isL i = true := hs
      rw [isL_iff] at hs
      rw [isI_iff] at hi
      rcases hs with rfl | rfl <;> simp at hi

theorem short_out {l : List Char} {n : Text} (hu : startsWith isU l = false) (hl : l ≠ []) : out (readLuajitSuffix st l p n) = some (ty, rest) ↔
    ∃ tail, l = tail ++ rest ∧ ty = .number (n ++ tail) ∧ ShortSuffix tail := by
  cases l with
  | nil => exact absurd rfl hl
  | cons ch r =>
    have hu : isU ch = false := hu
    have sI : ∀ {x : Char}, isI x = true → isL x = false := fun {x} h => by
      rw [isI_iff] at h; rcases h with rfl | rfl <;> rfl
    unfold readLuajitSuffix
    rw [if_neg (by simp [hu])]
    split
    · rename_i hL
      cases r with
      | nil =>
        dsimp only
        simp only [out_invalid, reduceCtorEq, false_iff]
        rintro ⟨tail, h, -, ⟨v, w, -, -, rfl⟩ | ⟨i, hi, rfl⟩⟩
        · simp at h
        · cases h; rw [sI hi] at hL; cases hL
      | cons ch' r' =>
        dsimp only
        split
        · rename_i hL'
          rw [out_create]
          simp only [Option.some.injEq, Prod.mk.injEq]
          constructor
          · rintro ⟨rfl, rfl⟩; exact ⟨[ch, ch'], rfl, by simp, .inl ⟨_, _, hL, hL', rfl⟩⟩
          · rintro ⟨tail, h, rfl, ⟨v, w, -, -, rfl⟩ | ⟨i, hi, rfl⟩⟩
            · cases h; simp
            · cases h; rw [sI hi] at hL; cases hL
        · rename_i hL'
          simp only [out_invalid, reduceCtorEq, false_iff]
          rintro ⟨tail, h, -, ⟨v, w, -, hw, rfl⟩ | ⟨i, hi, rfl⟩⟩
          · cases h; exact hL' hw
          · cases h; rw [sI hi] at hL; cases hL
    · rename_i hL
      split
      · rename_i hI
        rw [out_create]
        simp only [Option.some.injEq, Prod.mk.injEq]
        constructor
        · rintro ⟨rfl, rfl⟩; exact ⟨[ch], rfl, by simp, .inr ⟨_, hI, rfl⟩⟩
        · rintro ⟨tail, h, rfl, ⟨v, w, hv, -, rfl⟩ | ⟨i, hi, rfl⟩⟩
          · cases h; exact absurd hv hL
          · cases h; simp
      · rename_i hI
        simp only [out_invalid, reduceCtorEq, false_iff]
        rintro ⟨tail, h, -, ⟨v, w, hv, -, rfl⟩ | ⟨i, hi, rfl⟩⟩
        · cases h; exact hL hv
        · cases h; exact hI hi

theorem readLuajitSuffix_out (hj : c.luajit = true) {l : List Char} {n : Text} (hl : startsWith suffixMark l = true) :
    out (readLuajitSuffix st l p n) = some (ty, rest) ↔ ∃ tail, l = tail ++ rest ∧ ty = .number (n ++ tail) ∧ IntSuffix c tail := by
  have hne : l ≠ [] := by rintro rfl; cases hl
  cases hu : startsWith isU l with
  | false =>
    rw [short_out hu hne]
    refine exists_congr fun tail => and_congr_right fun h => and_congr_right fun _ => ?_
    rw [intSuffix_iff]
    refine ⟨fun h => ⟨hj, .inl h⟩, ?_⟩
    rintro ⟨-, h1 | ⟨u, t', h1, -, -, rfl⟩⟩
    · exact h1
    · rw [h] at hu
      exact absurd h1 (by simpa [startsWith] using hu)
  | true =>
    cases l with
    | nil => cases hu
    | cons ch r =>
      have hu' : isU ch = true := hu
      clear hu
      have hu := hu'
      clear hu'
      have notShort : ∀ {tail}, ch :: r = tail ++ rest → ¬ ShortSuffix tail := by
        rintro tail h (⟨v, w, hv, -, rfl⟩ | ⟨i, hi, rfl⟩) <;> cases h
        · rw [isU_iff] at hu; rw [isL_iff] at hv; rcases hu with rfl | rfl <;> simp at hv
        · rw [isU_iff] at hu; rw [isI_iff] at hi; rcases hu with rfl | rfl <;> simp at hi
      unfold readLuajitSuffix
      rw [if_pos hu]
      split
      · rename_i hL
        simp only [out_invalid, reduceCtorEq, false_iff]
        rintro ⟨tail, h, -, h1⟩
        rw [intSuffix_iff] at h1
        rcases h1.2 with h2 | ⟨u, t', -, h2, -, rfl⟩
        · exact notShort h h2
        · cases h
          cases t' with
          | nil => cases h2
          | cons x t' => simp [headIs, show isL x = true from h2] at hL
      · rename_i hL
        have hL : headIs isL r = true := by simpa using hL
        have hr : startsWith isU r = false ∧ r ≠ [] ∧ startsWith isL r = true := by
          cases r with
          | nil => cases hL
          | cons x r =>
            have hL : isL x = true := hL
            refine ⟨?_, by simp, hL⟩
            rw [isL_iff] at hL
            rcases hL with rfl | rfl <;> rfl
        rw [short_out hr.1 hr.2.1]
        constructor
        · rintro ⟨tail, rfl, rfl, h⟩
          refine ⟨ch :: tail, rfl, by simp, intSuffix_iff.2 ⟨hj, .inr ⟨ch, tail, hu, ?_, h, rfl⟩⟩⟩
          cases tail with
          | nil => rcases h with ⟨v, w, -, -, h⟩ | ⟨i, -, h⟩ <;> cases h
          | cons x t => exact hr.2.2
        · rintro ⟨tail, h, rfl, h1⟩
          rw [intSuffix_iff] at h1
          rcases h1.2 with h2 | ⟨u, t', -, -, h2, rfl⟩
          · exact absurd h2 (notShort h)
          · cases h; exact ⟨t', rfl, by simp, h2⟩

/-- What ends a number: nothing, an exponent or a suffix.  `pre` is what comes before it. -/
def NumTail (c : Cfg) (F : Char → Bool) (marks : List Char) (ok : Text → Prop) (pre tail rest : Text) : Prop :=
  (tail = [] ∧ ok pre ∧ startsWith F rest = false) ∨ (ok pre ∧ Exponent c marks tail ∧ startsWith (digitOr_ c) rest = false) ∨ IntSuffix c tail

/-- A number goes on with the text `l`; `n` is what was read. -/
def NumAt (q : Char → Bool) (points : Bool) (T : Text → Text → Text → Prop) (l : List Char) (n rest : Text) (ty : TokenType) : Prop :=
  ∃ body tail, l = body ++ (tail ++ rest) ∧ ty = .number (n ++ (body ++ tail)) ∧ Mantissa q points body ∧ T (n ++ body) tail rest

theorem intSuffix_first {t : Text} (h : IntSuffix c t) : ∃ ch t', t = ch :: t' ∧ suffixMark ch = true ∧ c.luajit = true := by
  obtain ⟨hj, u, v, w, i, hu, hv, -, hi, ht⟩ := h
  simp only [List.mem_cons, List.not_mem_nil, or_false] at ht
  rcases ht with rfl | rfl | rfl
  · exact ⟨v, _, rfl, by rcases hv with rfl | rfl <;> rfl, hj⟩
  · exact ⟨u, _, rfl, by rcases hu with rfl | rfl <;> rfl, hj⟩
  · exact ⟨i, _, rfl, by rcases hi with rfl | rfl <;> rfl, hj⟩

theorem NumTail.first {F : Char → Bool} {marks : List Char} {ok : Text → Prop} {pre tail : Text} {ch : Char} {l : List Char}
    (h : NumTail c F marks ok pre tail rest) (he : ch :: l = tail ++ rest) :
    (tail = [] ∧ F ch = false) ∨ (ch ∈ marks ∧ Exponent c marks tail) ∨ (c.luajit = true ∧ suffixMark ch = true ∧ IntSuffix c tail) := by
  rcases h with ⟨rfl, -, h⟩ | ⟨-, h, -⟩ | h
  · rw [List.nil_append] at he
    rw [← he] at h
    exact .inl ⟨rfl, h⟩
  · have h' := h
    obtain ⟨m, sign, d, ds, rfl, hm, -⟩ := h'
    cases he
    exact .inr (.inl ⟨hm, h⟩)
  · obtain ⟨x, t', rfl, hx, hj⟩ := intSuffix_first h
    cases he
    exact .inr (.inr ⟨hj, hx, h⟩)

variable {q : Char → Bool} {points : Bool} {T : Text → Text → Text → Prop} {ch : Char} {l : List Char} {n : Text}

theorem numAt_char (hq : q ch = true) (hp : ch ≠ '.') (hT : ∀ pre tail, T pre tail rest → ch :: l ≠ tail ++ rest) :
    NumAt q points T (ch :: l) n rest ty ↔ NumAt q points T l (n ++ [ch]) rest ty := by
  constructor
  · rintro ⟨body, tail, h, rfl, ⟨h1, h2⟩, h3⟩
    cases body with
    | nil => exact absurd h (hT _ _ h3)
    | cons x body =>
      cases h
      refine ⟨body, tail, rfl, by simp, ⟨fun y hy => h1 y (.tail _ hy), ?_⟩, by simpa using h3⟩
      rwa [List.count_cons_of_ne hp] at h2
  · rintro ⟨body, tail, rfl, rfl, ⟨h1, h2⟩, h3⟩
    refine ⟨ch :: body, tail, rfl, by simp, ⟨fun y hy => ?_, ?_⟩, by simpa using h3⟩
    · rcases List.mem_cons.1 hy with rfl | hy
      · exact .inl hq
      · exact h1 y hy
    · rwa [List.count_cons_of_ne hp]

theorem numAt_point (hT : ∀ pre tail, T pre tail rest → '.' :: l ≠ tail ++ rest) :
    NumAt q true T ('.' :: l) n rest ty ↔ NumAt q false T l (n ++ ['.']) rest ty := by
  constructor
  · rintro ⟨body, tail, h, rfl, ⟨h1, h2⟩, h3⟩
    cases body with
    | nil => exact absurd h (hT _ _ h3)
    | cons x body =>
      cases h
      refine ⟨body, tail, rfl, by simp, ⟨fun y hy => h1 y (.tail _ hy), ?_⟩, by simpa using h3⟩
      rw [List.count_cons_self] at h2
      simp only [if_true] at h2
      simp only [Bool.false_eq_true, if_false]
      omega
  · rintro ⟨body, tail, rfl, rfl, ⟨h1, h2⟩, h3⟩
    refine ⟨'.' :: body, tail, rfl, by simp, ⟨fun y hy => ?_, ?_⟩, by simpa using h3⟩
    · rcases List.mem_cons.1 hy with rfl | hy
      · exact .inr rfl
      · exact h1 y hy
    · rw [List.count_cons_self]
      simp only [Bool.false_eq_true, if_false] at h2
      simp only [if_true]
      omega

theorem numAt_stop (hl : ∀ ch r, l = ch :: r → q ch = false ∧ (ch = '.' → points = false)) :
    NumAt q points T l n rest ty ↔ ∃ tail, l = tail ++ rest ∧ ty = .number (n ++ tail) ∧ T n tail rest := by
  constructor
  · rintro ⟨body, tail, h, rfl, ⟨h1, h2⟩, h3⟩
    cases body with
    | nil => exact ⟨tail, h, by simp, by simpa using h3⟩
    | cons x body =>
      obtain ⟨g1, g2⟩ := hl x _ h
      rcases h1 x (.head _) with h | rfl
      · rw [g1] at h; cases h
      · rw [g2 rfl, List.count_cons_self] at h2
        simp at h2
  · rintro ⟨tail, h, rfl, h3⟩
    exact ⟨[], tail, h, by simp, ⟨by simp, by simp⟩, by simpa using h3⟩

variable {F : Char → Bool} {marks : List Char} {ok : Text → Prop}

theorem numTail_end (hl : ∀ ch r, l = ch :: r → F ch = false ∧ ch ∉ marks ∧ (c.luajit && suffixMark ch) = false) :
    (∃ tail, l = tail ++ rest ∧ ty = .number (n ++ tail) ∧ NumTail c F marks ok n tail rest) ↔ ok n ∧ ty = .number n ∧ l = rest := by
  constructor
  · rintro ⟨tail, rfl, rfl, h⟩
    rcases h with ⟨rfl, h, -⟩ | ⟨-, ⟨m, sign, d, ds, rfl, hm, -⟩, -⟩ | h
    · exact ⟨h, by simp, rfl⟩
    · exact absurd hm (hl m _ rfl).2.1
    · obtain ⟨x, t', rfl, hx, hj⟩ := intSuffix_first h
      have := (hl x _ rfl).2.2
      rw [hj, hx] at this
      cases this
  · rintro ⟨h, rfl, rfl⟩
    refine ⟨[], rfl, by simp, .inl ⟨rfl, h, ?_⟩⟩
    cases l with
    | nil => rfl
    | cons x r => exact (hl x r rfl).1

theorem numTail_exponent (hF : F ch = true) (hm : ch ∈ marks) (hs : suffixMark ch = false) :
    (∃ tail, ch :: l = tail ++ rest ∧ ty = .number (n ++ tail) ∧ NumTail c F marks ok n tail rest) ↔
    ok n ∧ out (readExponentPart c st ch l p n) = some (ty, rest) := by
  rw [readExponentPart_out hm]
  constructor
  · rintro ⟨tail, h, rfl, h1⟩
    rcases h1.first h with ⟨rfl, h2⟩ | ⟨-, h2⟩ | ⟨-, h2, -⟩
    · rw [h2] at hF; cases hF
    · rcases h1 with ⟨rfl, -⟩ | ⟨h3, h4, h5⟩ | h3
      · obtain ⟨_, _, _, _, h2, _⟩ := h2; cases h2
      · exact ⟨h3, tail, h, rfl, h2, h5⟩
      · obtain ⟨x, t', rfl, hx, -⟩ := intSuffix_first h3
        cases h
        rw [hx] at hs; cases hs
    · rw [h2] at hs; cases hs
  · rintro ⟨h0, tail, h, rfl, h1, h2⟩
    exact ⟨tail, h, rfl, .inr (.inl ⟨h0, h1, h2⟩)⟩

theorem numTail_suffix (hj : c.luajit = true) (hF : F ch = true) (hm : ch ∉ marks) (hs : suffixMark ch = true) :
    (∃ tail, ch :: l = tail ++ rest ∧ ty = .number (n ++ tail) ∧ NumTail c F marks ok n tail rest) ↔
    out (readLuajitSuffix st (ch :: l) p n) = some (ty, rest) := by
  rw [readLuajitSuffix_out hj (by exact hs)]
  constructor
  · rintro ⟨tail, h, rfl, h1⟩
    rcases h1.first h with ⟨rfl, h2⟩ | ⟨h2, -⟩ | ⟨-, -, h2⟩
    · rw [h2] at hF; cases hF
    · exact absurd h2 hm
    · exact ⟨tail, h, rfl, h2⟩
  · rintro ⟨tail, h, rfl, h1⟩
    exact ⟨tail, h, rfl, .inr (.inr h1)⟩

theorem suffixMark_iff {ch : Char} : suffixMark ch = true ↔ ch ∈ ['u', 'U', 'l', 'L', 'i', 'I'] := by
  unfold suffixMark; simp

theorem digitOr_iff {ch : Char} : digitOr_ c ch = true ↔ ('0' ≤ ch ∧ ch ≤ '9') ∨ (c.has .luau = true ∧ ch = '_') := by
  unfold digitOr_; simp

theorem hexOr_iff {ch : Char} : hexOr_ c ch = true ↔
    ('0' ≤ ch ∧ ch ≤ '9') ∨ ('a' ≤ ch ∧ ch ≤ 'f') ∨ ('A' ≤ ch ∧ ch ≤ 'F') ∨ (c.has .luau = true ∧ ch = '_') := by
  unfold hexOr_; simp [or_assoc]

theorem numTail_not (hF : F ch = true) (hm : ch ∉ marks) (hs : suffixMark ch = false) (pre tail : Text)
    (h : NumTail c F marks ok pre tail rest) : ch :: l ≠ tail ++ rest := by
  intro he
  rcases h.first he with ⟨-, h⟩ | ⟨h, -⟩ | ⟨-, h, -⟩
  · rw [h] at hF; cases hF
  · exact hm h
  · rw [h] at hs; cases hs

theorem digitOr_facts {ch : Char} (h : digitOr_ c ch = true) : ch ≠ '.' ∧ ch ∉ ['e', 'E'] ∧ suffixMark ch = false := by
  rw [digitOr_iff] at h
  refine ⟨?_, fun hx => ?_, Bool.eq_false_iff.2 fun hx => ?_⟩
  · rintro rfl; revert h; simp +decide
  · simp only [List.mem_cons, List.not_mem_nil, or_false] at hx
    rcases hx with rfl | rfl <;> revert h <;> simp +decide
  · rw [suffixMark_iff] at hx
    simp only [List.mem_cons, List.not_mem_nil, or_false] at hx
    rcases hx with rfl | rfl | rfl | rfl | rfl | rfl <;> revert h <;> simp +decide

theorem hexOr_facts {ch : Char} (h : hexOr_ c ch = true) : ch ≠ '.' ∧ ch ∉ ['p', 'P'] ∧ suffixMark ch = false := by
  rw [hexOr_iff] at h
  refine ⟨?_, fun hx => ?_, Bool.eq_false_iff.2 fun hx => ?_⟩
  · rintro rfl; revert h; simp +decide
  · simp only [List.mem_cons, List.not_mem_nil, or_false] at hx
    rcases hx with rfl | rfl <;> revert h <;> simp +decide
  · rw [suffixMark_iff] at hx
    simp only [List.mem_cons, List.not_mem_nil, or_false] at hx
    rcases hx with rfl | rfl | rfl | rfl | rfl | rfl <;> revert h <;> simp +decide

theorem bitOr_facts {ch : Char} (h : bitOr_ ch = true) : ch ≠ '.' ∧ suffixMark ch = false := by
  simp only [bitOr_, Bool.or_eq_true, beq_iff_eq] at h
  rcases h with (rfl | rfl) | rfl <;> exact ⟨by decide, rfl⟩

/-! ## The loops -/

/-- No decimal number ends in front of such a character. -/
def decMore (c : Cfg) (ch : Char) : Bool := digitOr_ c ch || ch == '.' || ch == 'e' || ch == 'E' || (c.has .luajit && suffixMark ch)

theorem numberLoop_out {l : List Char} {n : Text} {hit : Bool} : out (numberLoop c st l p n hit) = some (ty, rest) ↔
    NumAt (digitOr_ c) (!hit) (NumTail c (decMore c) ['e', 'E'] fun _ => True) l n rest ty := by
  induction l generalizing p n hit with
  | nil =>
    rw [numAt_stop (by nofun), numTail_end (by nofun)]
    simp only [numberLoop, out_create, Option.some.injEq, Prod.mk.injEq, true_and]
    constructor <;> (rintro ⟨rfl, rfl⟩; simp)
  | cons ch l ih =>
    unfold numberLoop
    rw [digitOr_eq, suffixMark_eq]
    split
    · rename_i hd
      obtain ⟨h1, h2, h3⟩ := digitOr_facts hd
      rw [ih, numAt_char hd h1 (numTail_not (by simp [decMore, hd]) h2 h3)]
    · rename_i hd
      split
      · rename_i hp
        subst hp
        split
        · rename_i hh
          subst hh
          rw [numAt_stop (by rintro _ _ ⟨⟩; exact ⟨by simpa using hd, fun _ => rfl⟩)]
          simp only [out_invalid, reduceCtorEq, false_iff]
          rintro ⟨tail, h, -, h1⟩
          exact numTail_not (by simp [decMore]) (by decide) (by decide) _ _ h1 h
        · rename_i hh
          rw [Bool.not_eq_true] at hh
          subst hh
          rw [ih, Bool.not_false, numAt_point (numTail_not (by simp [decMore]) (by decide) (by decide)), Bool.not_true]
      · rename_i hp
        rw [numAt_stop (by rintro _ _ ⟨⟩; exact ⟨by simpa using hd, fun h => absurd h hp⟩)]
        split
        · rename_i he
          rw [numTail_exponent (st := st) (p := p)]
          · simp
          · rcases he with rfl | rfl <;> simp [decMore]
          · simpa using he
          · rcases he with rfl | rfl <;> rfl
        · rename_i he
          split
          · rename_i hs
            rw [Bool.and_eq_true] at hs
            rw [numTail_suffix (st := st) (p := p) hs.1 _ _ hs.2]
            · have := hs.1
              simp [decMore, hs.2]; simp [this]
            · simpa using he
          · rename_i hs
            rw [numTail_end, out_create]
            · simp only [Option.some.injEq, Prod.mk.injEq, true_and]
              constructor <;> (rintro ⟨rfl, rfl⟩; simp)
            · rintro _ _ ⟨⟩
              refine ⟨?_, by simpa using he, by simpa using hs⟩
              have hs : (c.has .luajit && suffixMark ch) = false := by simpa using hs
              simp only [not_or] at he
              simp [decMore, hd, hp, he, hs]

/-- No hexadecimal number ends in front of such a character. -/
def hexMore (c : Cfg) (ch : Char) : Bool :=
  hexOr_ c ch || (c.has .lua52 && (ch == '.' || ch == 'p' || ch == 'P')) || (c.has .luajit && suffixMark ch)

theorem finishPrefixed_out {s : Src} {n : Text} : out (finishPrefixed st n s) = some (ty, rest) ↔ byteLen n ≠ 2 ∧ ty = .number n ∧ s.rest = rest := by
  unfold finishPrefixed
  split
  · rename_i h; simp [h]
  · rename_i h
    simp only [out_create, Option.some.injEq, Prod.mk.injEq, ne_eq, h, not_false_eq_true, true_and]
    constructor <;> (rintro ⟨rfl, rfl⟩; simp)

theorem hexOr_eq (ch : Char) : hexOr_ c ch = (isHexDigit ch || (ch == '_' && c.luau)) := by
  simp only [hexOr_, isHexDigit, Bool.and_comm (c.has .luau)]

theorem hexLoop_out {l : List Char} {n : Text} {hit : Bool} : out (hexLoop c st l p n hit) = some (ty, rest) ↔
    NumAt (hexOr_ c) (c.has .lua52 && !hit) (NumTail c (hexMore c) (if c.has .lua52 then ['p', 'P'] else []) fun n => byteLen n ≠ 2) l n rest ty := by
  induction l generalizing p n hit with
  | nil =>
    rw [numAt_stop (by nofun), numTail_end (by nofun)]
    rw [hexLoop, finishPrefixed_out]
  | cons ch l ih =>
    have hchar : hexOr_ c ch = true → (out (hexLoop c st l (p.advance ch) (n ++ [ch]) hit) = some (ty, rest) ↔
        NumAt (hexOr_ c) (c.has .lua52 && !hit) (NumTail c (hexMore c) (if c.has .lua52 then ['p', 'P'] else []) fun n => byteLen n ≠ 2) (ch :: l) n rest ty) := by
      intro hd
      obtain ⟨h1, h2, h3⟩ := hexOr_facts hd
      rw [ih, numAt_char hd h1 (numTail_not (by simp [hexMore, hd]) (by split; exact h2; simp) h3)]
    unfold hexLoop
    rw [suffixMark_eq]
    split
    · rename_i hd
      exact hchar (by simp [hexOr_eq, hd])
    · rename_i hd
      split
      · rename_i hd'
        exact hchar (by rw [hexOr_eq]; simpa [hd] using hd')
      · rename_i hd'
        have hd : hexOr_ c ch = false := by rw [hexOr_eq]; simpa [hd] using hd'
        split
        · rename_i hp
          simp only [Bool.and_eq_true, decide_eq_true_eq] at hp
          obtain ⟨rfl, h52⟩ := hp
          have h52 : c.has .lua52 = true := h52
          simp only [h52, if_true, Bool.true_and] at ih ⊢
          split
          · rename_i hh
            subst hh
            rw [numAt_stop (by rintro _ _ ⟨⟩; exact ⟨by simpa using hd, fun _ => rfl⟩)]
            simp only [out_invalid, reduceCtorEq, false_iff]
            rintro ⟨tail, h, -, h1⟩
            exact numTail_not (by simp [hexMore, h52]) (by decide) (by decide) _ _ h1 h
          · rename_i hh
            rw [Bool.not_eq_true] at hh
            subst hh
            rw [ih, Bool.not_false, numAt_point (numTail_not (by simp [hexMore, h52]) (by decide) (by decide)), Bool.not_true]
        · rename_i hp
          have hp : ch = '.' → c.has .lua52 = false := by
            intro h; simpa [h] using hp
          rw [numAt_stop (by rintro _ _ ⟨⟩; exact ⟨by simpa using hd, fun h => by simp [hp h]⟩)]
          split
          · rename_i he
            simp only [Bool.and_eq_true, Bool.or_eq_true, decide_eq_true_eq] at he
            obtain ⟨he, h52⟩ := he
            have h52 : c.has .lua52 = true := h52
            simp only [h52, if_true]
            rw [numTail_exponent (st := st) (p := p)]
            · split
              · rename_i hb; simp [hb]
              · rename_i hb; simp [hb]
            · rcases he with rfl | rfl <;> simp [hexMore, h52]
            · simpa using he
            · rcases he with rfl | rfl <;> rfl
          · rename_i he
            have he' : ch ∉ (if c.has .lua52 then ['p', 'P'] else []) := by
              split
              · rename_i h52
                have h52 : c.lua52 = true := h52
                simpa [h52] using he
              · simp
            split
            · rename_i hs
              rw [Bool.and_eq_true] at hs
              rw [numTail_suffix (st := st) (p := p) hs.1 _ he' hs.2]
              have := hs.1
              simp [hexMore, hs.2]; simp [this]
            · rename_i hs
              rw [numTail_end, finishPrefixed_out]
              rintro _ _ ⟨⟩
              refine ⟨?_, he', by simpa using hs⟩
              have hs : (c.has .luajit && suffixMark ch) = false := by simpa using hs
              cases h52 : c.has .lua52 with
              | false => simp [hexMore, hd, hs, h52]
              | true =>
                have hp : ch ≠ '.' := fun h => by rw [hp h] at h52; cases h52
                simp only [h52, if_true, List.mem_cons, List.not_mem_nil, or_false, not_or] at he'
                simp [hexMore, hd, hs, h52, hp, he']

/-- No binary number ends in front of such a character. -/
def binMore (c : Cfg) (ch : Char) : Bool := bitOr_ ch || (c.has .luajit && suffixMark ch)

theorem binaryLoop_out {l : List Char} {n : Text} : out (binaryLoop c st l p n) = some (ty, rest) ↔
    NumAt bitOr_ false (NumTail c (binMore c) [] fun n => byteLen n ≠ 2) l n rest ty := by
  induction l generalizing p n with
  | nil =>
    rw [numAt_stop (by nofun), numTail_end (by nofun)]
    rw [binaryLoop, finishPrefixed_out]
  | cons ch l ih =>
    unfold binaryLoop
    rw [suffixMark_eq]
    split
    · rename_i hd
      have hd : bitOr_ ch = true := by rcases hd with rfl | rfl | rfl <;> rfl
      obtain ⟨h1, h3⟩ := bitOr_facts hd
      rw [ih, numAt_char hd h1 (numTail_not (by simp [binMore, hd]) (by simp) h3)]
    · rename_i hd
      have hd : bitOr_ ch = false := by simpa [bitOr_, and_assoc] using hd
      rw [numAt_stop (by rintro _ _ ⟨⟩; exact ⟨by simpa using hd, fun h => rfl⟩)]
      split
      · rename_i hs
        rw [Bool.and_eq_true] at hs
        rw [numTail_suffix (st := st) (p := p) hs.1 _ (by simp) hs.2]
        have := hs.1
        simp [binMore, hs.2]; simp [this]
      · rename_i hs
        rw [numTail_end, finishPrefixed_out]
        rintro _ _ ⟨⟩
        refine ⟨?_, by simp, by simpa using hs⟩
        have hs : (c.has .luajit && suffixMark ch) = false := by simpa using hs
        simp [binMore, hd, hs]

/-! ## Whole numbers -/

/-- A number in front of a text. -/
def AnyNumber (c : Cfg) (t rest : Text) : Prop := Decimal c t rest ∨ Hexadecimal c t rest ∨ Binary c t rest

theorem byteLen_two {x : Char} (hx : x.utf8Size = 1) {body : Text} : byteLen (['0', x] ++ body) ≠ 2 ↔ body ≠ [] := by
  have h0 : ('0' : Char).utf8Size = 1 := by decide
  cases body with
  | nil => simp [byteLen, hx, h0]
  | cons y body =>
    have := Char.utf8Size_pos y
    simp [byteLen, hx, h0]
    omega

theorem numAt_decimal {first : Char} {r : List Char} (hf : ('0' ≤ first ∧ first ≤ '9') ∨ first = '.' ∧ startsWith (fun ch => '0' ≤ ch && ch ≤ '9') r = true)
    (h0 : first = '0' → startsWith (fun ch => ch == 'x' || ch == 'X' || ((c.has .luau || c.has .luajit) && (ch == 'b' || ch == 'B'))) r = false) :
    NumAt (digitOr_ c) true (NumTail c (decMore c) ['e', 'E'] fun _ => True) r [first] rest ty ↔
    ∃ t, ty = .number t ∧ first :: r = t ++ rest ∧ Decimal c t rest := by
  constructor
  · rintro ⟨body, tail, rfl, rfl, hm, hT⟩
    refine ⟨first :: (body ++ tail), rfl, by simp, first, body, tail, rfl, ?_, hm, ?_⟩
    · rcases hf with h | ⟨h1, h2⟩
      · exact .inl h
      · refine .inr ⟨h1, ?_⟩
        cases body with
        | cons x b => exact h2
        | nil =>
          exfalso
          rw [List.nil_append] at h2
          cases he : tail ++ rest with
          | nil => rw [he] at h2; cases h2
          | cons x v =>
            rw [he] at h2
            have h2 : digitOr_ c x = true := digitOr_iff.2 (.inl (by simpa [startsWith] using h2))
            obtain ⟨h1, h4, h5⟩ := digitOr_facts h2
            exact numTail_not (by simp [decMore, h2]) h4 h5 _ _ hT he.symm
    · rcases hT with ⟨rfl, -, h⟩ | ⟨-, h1, h2⟩ | h
      · refine .inl ⟨rfl, h, fun he => ?_⟩
        simp only [List.append_nil, List.cons.injEq] at he
        obtain ⟨rfl, rfl⟩ := he
        simpa using h0 rfl
      · exact .inr (.inl ⟨h1, h2⟩)
      · exact .inr (.inr h)
  · rintro ⟨t, rfl, h, first', body, tail, rfl, -, hm, hT⟩
    simp only [List.cons_append, List.cons.injEq, List.append_assoc] at h
    obtain ⟨rfl, rfl⟩ := h
    refine ⟨body, tail, rfl, rfl, hm, ?_⟩
    rcases hT with ⟨rfl, h, -⟩ | ⟨h1, h2⟩ | h
    · exact .inl ⟨rfl, trivial, h⟩
    · exact .inr (.inl ⟨trivial, h1, h2⟩)
    · exact .inr (.inr h)

theorem decimal_first {t : Text} (h : Decimal c t rest) : ∃ first t', t = first :: t' ∧
    (('0' ≤ first ∧ first ≤ '9') ∨ first = '.' ∧ startsWith (fun ch => '0' ≤ ch && ch ≤ '9') t' = true) := by
  obtain ⟨first, body, tail, rfl, hf, -⟩ := h
  refine ⟨first, _, rfl, hf.imp_right fun ⟨h1, h2⟩ => ⟨h1, ?_⟩⟩
  cases body with
  | nil => cases h2
  | cons x b => exact h2

theorem anyNumber_first {t : Text} (h : AnyNumber c t rest) : ∃ first t', t = first :: t' ∧
    (('0' ≤ first ∧ first ≤ '9') ∨ first = '.' ∧ startsWith (fun ch => '0' ≤ ch && ch ≤ '9') t' = true) := by
  rcases h with h | ⟨x, body, tail, rfl, -⟩ | ⟨-, x, body, tail, rfl, -⟩
  · exact decimal_first h
  · exact ⟨_, _, rfl, .inl (by decide)⟩
  · exact ⟨_, _, rfl, .inl (by decide)⟩

theorem readNumber_out {first : Char} {r : List Char} (hf : ('0' ≤ first ∧ first ≤ '9') ∨ first = '.' ∧ startsWith (fun ch => '0' ≤ ch && ch ≤ '9') r = true)
    (h0 : first ≠ '0') : out (readNumber c st [first] ⟨r, p⟩) = some (ty, rest) ↔ ∃ t, ty = .number t ∧ first :: r = t ++ rest ∧ AnyNumber c t rest := by
  unfold readNumber
  dsimp only
  rw [numberLoop_out, Bool.not_false, numAt_decimal hf (fun h => absurd h h0)]
  refine exists_congr fun t => and_congr_right fun _ => and_congr_right fun h => ⟨.inl, ?_⟩
  rintro (h1 | ⟨x, body, tail, rfl, -⟩ | ⟨-, x, body, tail, rfl, -⟩)
  · exact h1
  · cases h; exact absurd rfl h0
  · cases h; exact absurd rfl h0

/-- A decimal number that starts with `0` goes on with no mark of another base. -/
theorem decimal_zero {x : Char} {r t : Text} (h : Decimal c t rest) (he : '0' :: x :: r = t ++ rest) :
    (x == 'x' || x == 'X' || ((c.has .luau || c.has .luajit) && (x == 'b' || x == 'B'))) = false := by
  obtain ⟨first, body, tail, rfl, -, hm, hT⟩ := h
  simp only [List.cons_append, List.cons.injEq, List.append_assoc] at he
  obtain ⟨rfl, he⟩ := he
  have key : ∀ {y}, y = 'x' ∨ y = 'X' ∨ y = 'b' ∨ y = 'B' → digitOr_ c y = false ∧ y ≠ '.' ∧ y ≠ 'e' ∧ y ≠ 'E' ∧ suffixMark y = false := by
    have : ∀ y, y = 'x' ∨ y = 'X' ∨ y = 'b' ∨ y = 'B' → digitOr_ c y = false := by
      intro y hy
      apply Bool.eq_false_iff.2
      rw [Ne, digitOr_iff]
      rcases hy with rfl | rfl | rfl | rfl <;> simp +decide
    intro y hy
    refine ⟨this y hy, ?_⟩
    rcases hy with rfl | rfl | rfl | rfl <;> decide
  apply Bool.eq_false_iff.2
  intro hx
  have hx' : x = 'x' ∨ x = 'X' ∨ x = 'b' ∨ x = 'B' := by
    simp only [Bool.or_eq_true, Bool.and_eq_true, beq_iff_eq] at hx
    rcases hx with (h | h) | ⟨-, h | h⟩ <;> simp [h]
  obtain ⟨k1, k2, k3, k4, k5⟩ := key hx'
  cases body with
  | cons y b =>
    cases he
    rcases hm.1 x (.head _) with h | h
    · rw [k1] at h; cases h
    · exact k2 h
  | nil =>
    rw [List.nil_append] at he
    rcases hT with ⟨rfl, -, h⟩ | ⟨⟨m, sign, d, ds, rfl, hm, -⟩, -⟩ | h
    · rw [List.nil_append] at he
      have := h rfl
      rw [← he] at this
      exact absurd (this.symm.trans hx) (by decide)
    · cases he
      simp at hm
      rcases hm with h | h
      · exact k3 h
      · exact k4 h
    · obtain ⟨y, t', rfl, hy, -⟩ := intSuffix_first h
      cases he
      rw [k5] at hy
      cases hy

theorem readHex_out {x : Char} (hx : x = 'x' ∨ x = 'X') {r : List Char} : out (readHexNumber c st x ⟨r, p⟩) = some (ty, rest) ↔
    ∃ t, ty = .number t ∧ '0' :: x :: r = t ++ rest ∧ Hexadecimal c t rest := by
  have h1 : x.utf8Size = 1 := by rcases hx with rfl | rfl <;> decide
  unfold readHexNumber
  dsimp only
  rw [hexLoop_out, Bool.not_false, Bool.and_true]
  constructor
  · rintro ⟨body, tail, rfl, rfl, hm, hT⟩
    refine ⟨'0' :: x :: (body ++ tail), rfl, by simp, x, body, tail, rfl, hx, hm, ?_⟩
    rcases hT with ⟨rfl, h, h'⟩ | ⟨h, h2, h3⟩ | h
    · exact .inl ⟨rfl, (byteLen_two h1).1 h, h'⟩
    · split at h2
      · rename_i h52
        exact .inr (.inl ⟨h52, (byteLen_two h1).1 h, h2, h3⟩)
      · obtain ⟨m, _, _, _, -, hm, -⟩ := h2
        cases hm
    · exact .inr (.inr h)
  · rintro ⟨t, rfl, h, x', body, tail, rfl, -, hm, hT⟩
    simp only [List.cons_append, List.cons.injEq, List.append_assoc, true_and] at h
    obtain ⟨rfl, rfl⟩ := h
    refine ⟨body, tail, rfl, rfl, hm, ?_⟩
    rcases hT with ⟨rfl, h, h'⟩ | ⟨h52, h, h2, h3⟩ | h
    · exact .inl ⟨rfl, (byteLen_two h1).2 h, h'⟩
    · refine .inr (.inl ⟨(byteLen_two h1).2 h, ?_, h3⟩)
      rwa [if_pos h52]
    · exact .inr (.inr h)

theorem mantissa_false {q : Char → Bool} (hq : q '.' = false) {t : Text} : Mantissa q false t ↔ ∀ ch ∈ t, q ch = true := by
  constructor
  · rintro ⟨h1, h2⟩ ch hc
    rcases h1 ch hc with h | rfl
    · exact h
    · have := List.count_pos_iff.2 hc
      simp at h2
      omega
  · intro h
    refine ⟨fun ch hc => .inl (h ch hc), ?_⟩
    have : '.' ∉ t := fun hc => by rw [h _ hc] at hq; cases hq
    simp [List.count_eq_zero.2 this]

theorem readBinary_out (hv : c.has .luau = true ∨ c.has .luajit = true) {x : Char} (hx : x = 'b' ∨ x = 'B') {r : List Char} :
    out (readBinaryNumber c st x ⟨r, p⟩) = some (ty, rest) ↔ ∃ t, ty = .number t ∧ '0' :: x :: r = t ++ rest ∧ Binary c t rest := by
  have h1 : x.utf8Size = 1 := by rcases hx with rfl | rfl <;> decide
  unfold readBinaryNumber
  dsimp only
  rw [binaryLoop_out]
  constructor
  · rintro ⟨body, tail, rfl, rfl, hm, hT⟩
    refine ⟨'0' :: x :: (body ++ tail), rfl, by simp, hv, x, body, tail, rfl, hx, (mantissa_false rfl).1 hm, ?_⟩
    rcases hT with ⟨rfl, h, h'⟩ | ⟨h, ⟨m, _, _, _, -, hm, -⟩, h3⟩ | h
    · exact .inl ⟨rfl, (byteLen_two h1).1 h, h'⟩
    · cases hm
    · exact .inr h
  · rintro ⟨t, rfl, h, -, x', body, tail, rfl, -, hm, hT⟩
    simp only [List.cons_append, List.cons.injEq, List.append_assoc, true_and] at h
    obtain ⟨rfl, rfl⟩ := h
    refine ⟨body, tail, rfl, rfl, (mantissa_false rfl).2 hm, ?_⟩
    rcases hT with ⟨rfl, h, h'⟩ | h
    · exact .inl ⟨rfl, (byteLen_two h1).2 h, h'⟩
    · exact .inr (.inr h)

theorem readZero_out {r : List Char} : out (readZero c st ⟨r, p⟩) = some (ty, rest) ↔ ∃ t, ty = .number t ∧ '0' :: r = t ++ rest ∧ AnyNumber c t rest := by
  have dec : startsWith (fun ch => ch == 'x' || ch == 'X' || ((c.has .luau || c.has .luajit) && (ch == 'b' || ch == 'B'))) r = false →
      (out (readNumber c st ['0'] ⟨r, p⟩) = some (ty, rest) ↔ ∃ t, ty = .number t ∧ '0' :: r = t ++ rest ∧ AnyNumber c t rest) := by
    intro h0
    unfold readNumber
    dsimp only
    rw [numberLoop_out, Bool.not_false, numAt_decimal (.inl (by decide)) (fun _ => h0)]
    refine exists_congr fun t => and_congr_right fun _ => and_congr_right fun h => ⟨.inl, ?_⟩
    rintro (h1 | ⟨x, body, tail, rfl, hx, -⟩ | ⟨hv, x, body, tail, rfl, hx, -⟩)
    · exact h1
    · cases h; exfalso; rcases hx with rfl | rfl <;> simp [startsWith] at h0
    · cases h; exfalso
      have : (c.has .luau || c.has .luajit) = true := by simpa using hv
      rcases hx with rfl | rfl <;> simp [startsWith, this] at h0 <;> simp [h0] at hv
  cases r with
  | nil => exact dec rfl
  | cons ch r =>
    unfold readZero
    dsimp only
    split
    · rename_i hx
      simp only [Src.advance]
      rw [readHex_out hx]
      refine exists_congr fun t => and_congr_right fun _ => and_congr_right fun h => ⟨fun h => .inr (.inl h), ?_⟩
      rintro (h1 | h1 | ⟨-, x, body, tail, rfl, hb, -⟩)
      · have := decimal_zero h1 h
        rcases hx with rfl | rfl <;> simp at this
      · exact h1
      · cases h
        rcases hx with rfl | rfl <;> simp at hb
    · rename_i hx
      split
      · rename_i hb
        simp only [Bool.and_eq_true, Bool.or_eq_true, decide_eq_true_eq] at hb
        simp only [Src.advance]
        rw [readBinary_out hb.1 hb.2]
        refine exists_congr fun t => and_congr_right fun _ => and_congr_right fun h => ⟨fun h => .inr (.inr h), ?_⟩
        rintro (h1 | ⟨x, body, tail, rfl, hx', -⟩ | h1)
        · have := decimal_zero h1 h
          have hv : (c.has .luau || c.has .luajit) = true := by simpa using hb.1
          rcases hb.2 with rfl | rfl <;> simp [hv] at this <;> (have := hb.1; simp_all)
        · cases h; exact absurd hx' hx
        · exact h1
      · rename_i hb
        refine dec ?_
        simp only [not_or] at hx
        simp only [Bool.not_eq_true] at hb
        simp only [startsWith, beq_eq_false_iff_ne.2 hx.1, beq_eq_false_iff_ne.2 hx.2, Bool.false_or]
        rw [← hb]; congr 1

end FM
