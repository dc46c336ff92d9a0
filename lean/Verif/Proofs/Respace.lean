import Verif.Proofs.LexerStep

/-! Helper lemmas: what a reader of the tokenizer returns depends only on the text it consumes and on the next character. -/

namespace FM
open Spec

/-- A character that never continues a token: white space, a comma, a semicolon, a parenthesis or a brace. -/
def IsSoft (ch : Char) : Prop := IsBlank ch ∨ ch = ',' ∨ ch = ';' ∨ ch = '(' ∨ ch = ')' ∨ ch = '{' ∨ ch = '}'

/-- A text that is empty or starts with such a character. -/
def Soft : Text → Prop
  | [] => True
  | ch :: _ => IsSoft ch

/-- After a `[`, the text makes a long bracket. -/
def opensLong : Text → Bool
  | [] => false
  | ch :: r => if ch = '=' then opensLong r else ch == '['

/-- `rest'` can take the place of `rest` behind a token. -/
structure Follows (rest rest' : Text) : Prop where
  head : rest'.head? = rest.head? ∨ Soft rest'

/-- If the first reader leaves `rest`, the second one leaves `rest'`, and the tokens have the same type. -/
def Loc (rest rest' : Text) (r r' : ReadRes) : Prop :=
  ∀ t, r.1 = .ok t → r.2.rest = rest → ∃ t', r'.1 = .ok t' ∧ t'.type = t.type ∧ r'.2.rest = rest'

variable {c : Cfg} {rest rest' : Text} {st st' p p' : Position}

theorem Loc.create {ty : TokenType} : Loc rest rest' (create st ty ⟨rest, p⟩) (create st' ty ⟨rest', p'⟩) := by
  intro t h _
  cases h
  exact ⟨_, rfl, rfl, rfl⟩

theorem Loc.symTok {y : Symbol} : Loc rest rest' (symTok st y ⟨rest, p⟩) (symTok st' y ⟨rest', p'⟩) := Loc.create

theorem Loc.of_length {r r' : ReadRes} (h : r.2.rest.length < rest.length) : Loc rest rest' r r' := by
  intro t _ h'
  rw [h'] at h
  omega

theorem Loc.of_not_ok {r r' : ReadRes} (h : ∀ t, r.1 ≠ .ok t) : Loc rest rest' r r' := fun t h' => absurd h' (h t)

theorem eatInvalidNumber_not_ok (l : List Char) (p : Position) (n : Text) (t : Token) : (eatInvalidNumber st l p n).1 ≠ .ok t := by
  induction l generalizing p n with
  | nil => nofun
  | cons ch l ih =>
    unfold eatInvalidNumber
    split
    · nofun
    · exact ih _ _

theorem Loc.invalid {l : List Char} {n : Text} {r' : ReadRes} : Loc rest rest' (eatInvalidNumber st l p n) r' :=
  .of_not_ok fun t => eatInvalidNumber_not_ok l p n t

/-! ## How much is left -/

theorem eatInvalidNumber_len (l : List Char) (p : Position) (n : Text) : (eatInvalidNumber st l p n).2.rest.length ≤ l.length := by
  induction l generalizing p n with
  | nil => exact Nat.le_refl _
  | cons ch l ih =>
    unfold eatInvalidNumber
    split
    · exact Nat.le_refl _
    · exact Nat.le_succ_of_le (ih _ _)

theorem exponentLoop_len (l : List Char) (p : Position) (n : Text) : (exponentLoop c st l p n).2.rest.length ≤ l.length := by
  induction l generalizing p n with
  | nil => exact Nat.le_refl _
  | cons ch l ih =>
    unfold exponentLoop
    split
    · exact Nat.le_succ_of_le (ih _ _)
    · exact Nat.le_refl _

theorem exponentDigits_len (l : List Char) (p : Position) (n : Text) : (exponentDigits c st l p n).2.rest.length ≤ l.length := by
  unfold exponentDigits
  split
  · exact eatInvalidNumber_len _ _ _
  · exact exponentLoop_len _ _ _

theorem readExponentPart_len (m : Char) (l : List Char) (p : Position) (n : Text) : (readExponentPart c st m l p n).2.rest.length ≤ l.length := by
  unfold readExponentPart
  split
  · exact exponentDigits_len _ _ _
  · split
    · exact Nat.le_succ_of_le (exponentDigits_len _ _ _)
    · exact exponentDigits_len _ _ _

theorem readLuajitSuffix_len (l : List Char) (p : Position) (n : Text) : (readLuajitSuffix st l p n).2.rest.length ≤ l.length := by
  induction l generalizing p n with
  | nil => exact Nat.le_refl _
  | cons ch l ih =>
    unfold readLuajitSuffix
    split
    · split
      · exact Nat.le_succ_of_le (eatInvalidNumber_len _ _ _)
      · exact Nat.le_succ_of_le (ih _ _)
    · split
      · split
        · split
          · exact Nat.le_succ_of_le (Nat.le_succ_of_le (Nat.le_refl _))
          · exact Nat.le_succ_of_le (eatInvalidNumber_len _ _ _)
        · exact Nat.le_succ_of_le (eatInvalidNumber_len _ _ _)
      · split
        · exact Nat.le_succ _
        · exact eatInvalidNumber_len _ _ _

theorem numberLoop_len (l : List Char) (p : Position) (n : Text) (hit : Bool) : (numberLoop c st l p n hit).2.rest.length ≤ l.length := by
  induction l generalizing p n hit with
  | nil => exact Nat.le_refl _
  | cons ch l ih =>
    unfold numberLoop
    split
    · exact Nat.le_succ_of_le (ih _ _ _)
    · split
      · split
        · exact eatInvalidNumber_len _ _ _
        · exact Nat.le_succ_of_le (ih _ _ _)
      · split
        · exact Nat.le_succ_of_le (readExponentPart_len _ _ _ _)
        · split
          · exact readLuajitSuffix_len _ _ _
          · exact Nat.le_refl _

theorem finishPrefixed_len (n : Text) (s : Src) : (finishPrefixed st n s).2.rest.length ≤ s.rest.length := by
  unfold finishPrefixed
  split
  · exact eatInvalidNumber_len _ _ _
  · exact Nat.le_refl _

theorem hexLoop_len (l : List Char) (p : Position) (n : Text) (hit : Bool) : (hexLoop c st l p n hit).2.rest.length ≤ l.length := by
  induction l generalizing p n hit with
  | nil => exact finishPrefixed_len _ _
  | cons ch l ih =>
    unfold hexLoop
    split
    · exact Nat.le_succ_of_le (ih _ _ _)
    · split
      · exact Nat.le_succ_of_le (ih _ _ _)
      · split
        · split
          · exact eatInvalidNumber_len _ _ _
          · exact Nat.le_succ_of_le (ih _ _ _)
        · split
          · split
            · exact eatInvalidNumber_len _ _ _
            · exact Nat.le_succ_of_le (readExponentPart_len _ _ _ _)
          · split
            · exact readLuajitSuffix_len _ _ _
            · exact finishPrefixed_len _ _

theorem binaryLoop_len (l : List Char) (p : Position) (n : Text) : (binaryLoop c st l p n).2.rest.length ≤ l.length := by
  induction l generalizing p n with
  | nil => exact finishPrefixed_len _ _
  | cons ch l ih =>
    unfold binaryLoop
    split
    · exact Nat.le_succ_of_le (ih _ _)
    · split
      · exact readLuajitSuffix_len _ _ _
      · exact finishPrefixed_len _ _

/-- A suffix is not empty. -/
theorem readLuajitSuffix_pos {ch : Char} {l : List Char} {n : Text} {t : Token} (h : (readLuajitSuffix st (ch :: l) p n).1 = .ok t) :
    (readLuajitSuffix st (ch :: l) p n).2.rest.length < (ch :: l).length := by
  unfold readLuajitSuffix at h ⊢
  split
  · split
    · exact Nat.lt_succ_of_le (eatInvalidNumber_len _ _ _)
    · exact Nat.lt_succ_of_le (readLuajitSuffix_len _ _ _)
  · rename_i h1
    rw [if_neg h1] at h
    split
    · split
      · split
        · exact Nat.lt_succ_of_le (Nat.le_succ _)
        · exact Nat.lt_succ_of_le (eatInvalidNumber_len _ _ _)
      · exact Nat.lt_succ_of_le (eatInvalidNumber_len _ _ _)
    · rename_i h2
      rw [if_neg h2] at h
      split
      · exact Nat.lt_succ_self _
      · rename_i h3
        rw [if_neg h3] at h
        exact absurd h (eatInvalidNumber_not_ok _ _ _ _)

/-! ## Numbers -/

/-- White space is none of the characters of a token. -/
theorem blank_not {ch : Char} (h : IsSoft ch) : isDigit ch = false ∧ ch ≠ '_' ∧ ch ≠ '.' ∧ ch ≠ 'e' ∧ ch ≠ 'E' ∧ ch ≠ 'p' ∧ ch ≠ 'P' ∧
    isU ch = false ∧ isL ch = false ∧ isI ch = false ∧ isHexDigit ch = false ∧ ch ≠ '+' ∧ ch ≠ '-' ∧ ch ≠ '0' ∧ ch ≠ '1' ∧ ch ≠ 'x' ∧ ch ≠ 'X' ∧
    ch ≠ 'b' ∧ ch ≠ 'B' ∧ isIdentStart ch = false ∧ ch ≠ '=' ∧ ch ≠ '[' := by
  rcases h with (rfl | rfl | rfl | rfl) | rfl | rfl | rfl | rfl | rfl | rfl <;> decide

/-- What can be first behind a token. -/
theorem Follows.cases (h : Follows rest rest') : (rest' = []) ∨ (∃ ch r, rest' = ch :: r ∧ IsSoft ch) ∨
    ∃ ch r r', rest = ch :: r ∧ rest' = ch :: r' := by
  rcases h.head with h1 | h1
  · cases rest' with
    | nil => exact .inl rfl
    | cons ch r' =>
      cases rest with
      | nil => simp at h1
      | cons x r =>
        simp at h1
        subst h1
        exact .inr (.inr ⟨_, _, _, rfl, rfl⟩)
  · cases rest' with
    | nil => exact .inl rfl
    | cons ch r' => exact .inr (.inl ⟨_, _, rfl, h1⟩)

/-- A loop stopped too early. -/
theorem Loc.early {ty : TokenType} {x : Char} {w : Text} {r' : ReadRes} : Loc rest rest' (FM.create st ty ⟨x :: (w ++ rest), p⟩) r' := by
  intro t _ h
  have := congrArg List.length h
  simp [FM.create] at this
  omega

/-- The end of a loop. -/
theorem Loc.stop {F F' G G' : Text → ReadRes} (hf : Follows rest rest') (hG : Loc rest rest' (G rest) (G' rest'))
    (hnil : F [] = G []) (hnil' : F' [] = G' [])
    (hgo : ∀ ch, (∀ r r' y, Loc (ch :: r) r' (F (ch :: r)) y) ∨ ((∀ r, F (ch :: r) = G (ch :: r)) ∧ ∀ r, F' (ch :: r) = G' (ch :: r)))
    (hb : ∀ ch r, IsSoft ch → F' (ch :: r) = G' (ch :: r)) : Loc rest rest' (F rest) (F' rest') := by
  have h0 : Loc rest rest' (F rest) (G' rest') := by
    cases rest with
    | nil => rw [hnil]; exact hG
    | cons ch r =>
      rcases hgo ch with h | h
      · exact h _ _ _
      · rw [h.1]; exact hG
  rcases hf.cases with rfl | ⟨ch, r, rfl, h⟩ | ⟨ch, r, r', rfl, rfl⟩
  · rw [hnil']; exact h0
  · rw [hb _ _ h]; exact h0
  · rcases hgo ch with h | h
    · exact h _ _ _
    · rw [h.2]; exact h0

theorem exponentLoop_loc (hf : Follows rest rest') (w : Text) (p p' : Position) (n : Text) :
    Loc rest rest' (exponentLoop c st (w ++ rest) p n) (exponentLoop c st' (w ++ rest') p' n) := by
  induction w generalizing p p' n with
  | nil =>
    refine Loc.stop (F := fun l => exponentLoop c st l p n) (F' := fun l => exponentLoop c st' l p' n) (G := fun l => create st (.number n) ⟨l, p⟩) (G' := fun l => create st' (.number n) ⟨l, p'⟩) hf ?_ rfl rfl ?_ ?_
    · exact .create
    · intro ch
      by_cases h0 : (isDigit ch || (c.luau && ch == '_')) = true
      · refine .inl fun r r' y => ?_
        simp only [exponentLoop, if_pos h0]
        exact .of_length (Nat.lt_succ_of_le (exponentLoop_len _ _ _))
      exact .inr ⟨fun r => by simp only [exponentLoop, if_neg h0], fun r => by simp only [exponentLoop, if_neg h0]⟩
    · intro ch r h
      simp [exponentLoop, blank_not h]
  | cons x w ih =>
    simp only [List.cons_append, exponentLoop]
    split
    · exact ih _ _ _
    · exact .early

theorem headIs_append {q : Char → Bool} {x : Char} {w : Text} : headIs q (x :: w ++ rest) = headIs q (x :: w ++ rest') := rfl

theorem exponentDigits_loc (hf : Follows rest rest') (w : Text) (p p' : Position) (n : Text) :
    Loc rest rest' (exponentDigits c st (w ++ rest) p n) (exponentDigits c st' (w ++ rest') p' n) := by
  unfold exponentDigits
  cases w with
  | nil =>
    simp only [List.nil_append]
    split
    · exact .invalid
    · rename_i h
      cases rest with
      | nil => simp [headIs] at h
      | cons ch r =>
        refine .of_length ?_
        simp only [headIs] at h
        unfold exponentLoop
        simp at h
        simp [h]
        exact Nat.lt_succ_of_le (exponentLoop_len _ _ _)
  | cons x w =>
    simp only [List.cons_append, headIs]
    change Loc rest rest' (if (!isDigit x) = true then _ else _) (if (!isDigit x) = true then _ else _)
    by_cases h : (!isDigit x) = true
    · rw [if_pos h, if_pos h]
      exact .invalid
    · rw [if_neg h, if_neg h]
      exact exponentLoop_loc hf (x :: w) _ _ _

theorem readExponentPart_loc (hf : Follows rest rest') (m : Char) (w : Text) (p p' : Position) (n : Text) :
    Loc rest rest' (readExponentPart c st m (w ++ rest) p n) (readExponentPart c st' m (w ++ rest') p' n) := by
  cases w with
  | nil =>
    have h0 : ∀ y, Loc rest rest' (readExponentPart c st m rest p n) y := by
      intro y
      unfold readExponentPart
      split
      · unfold exponentDigits
        exact .invalid
      · rename_i ch r
        split
        · exact .of_length (Nat.lt_succ_of_le (exponentDigits_len _ _ _))
        · unfold exponentDigits
          split
          · exact .invalid
          · rename_i h
            refine .of_length ?_
            simp only [headIs] at h
            unfold exponentLoop
            simp at h
            simp [h]
            exact Nat.lt_succ_of_le (exponentLoop_len _ _ _)
    exact h0 _
  | cons x w =>
    simp only [List.cons_append, readExponentPart]
    split
    · exact exponentDigits_loc hf w _ _ _
    · exact exponentDigits_loc hf (x :: w) _ _ _

theorem readLuajitSuffix_loc (hf : Follows rest rest') (x : Char) (w : Text) (p p' : Position) (n : Text) :
    Loc rest rest' (readLuajitSuffix st (x :: w ++ rest) p n) (readLuajitSuffix st' (x :: w ++ rest') p' n) := by
  induction w generalizing x p p' n with
  | nil =>
    simp only [List.cons_append, List.nil_append, readLuajitSuffix]
    split
    · split
      · exact .invalid
      · rename_i h
        cases rest with
        | nil => simp [headIs] at h
        | cons ch r =>
          intro t ht
          exact Loc.of_length (readLuajitSuffix_pos ht) t ht
    · split
      · split
        · split
          · exact .of_length (Nat.lt_succ_self _)
          · exact .invalid
        · exact .invalid
      · split
        · exact .create
        · exact .invalid
  | cons y w ih =>
    rw [show x :: y :: w ++ rest = x :: (y :: (w ++ rest)) from rfl, show x :: y :: w ++ rest' = x :: (y :: (w ++ rest')) from rfl]
    unfold readLuajitSuffix
    dsimp only [headIs]
    split
    · change Loc rest rest' (if (!isL y) = true then _ else _) (if (!isL y) = true then _ else _)
      by_cases h : (!isL y) = true
      · rw [if_pos h, if_pos h]
        exact .invalid
      · rw [if_neg h, if_neg h]
        exact ih _ _ _ _
    · split
      · split
        · cases w with
          | nil => exact .create
          | cons z w => exact .early
        · exact .invalid
      · split
        · exact .early
        · exact .invalid

theorem numberLoop_loc (hf : Follows rest rest') (w : Text) (p p' : Position) (n : Text) (hit : Bool) :
    Loc rest rest' (numberLoop c st (w ++ rest) p n hit) (numberLoop c st' (w ++ rest') p' n hit) := by
  induction w generalizing p p' n hit with
  | nil =>
    refine Loc.stop (F := fun l => numberLoop c st l p n hit) (F' := fun l => numberLoop c st' l p' n hit) (G := fun l => create st (.number n) ⟨l, p⟩) (G' := fun l => create st' (.number n) ⟨l, p'⟩) hf ?_ rfl rfl ?_ ?_
    · exact .create
    · intro ch
      by_cases h0 : (isDigit ch || (c.luau && ch == '_')) = true
      · refine .inl fun r r' y => ?_
        simp only [numberLoop, if_pos h0]
        exact .of_length (Nat.lt_succ_of_le (numberLoop_len _ _ _ _))
      by_cases h1 : ch = '.'
      · refine .inl fun r r' y => ?_
        simp only [numberLoop, if_neg h0, if_pos h1]
        split
        · exact .invalid
        · exact .of_length (Nat.lt_succ_of_le (numberLoop_len _ _ _ _))
      by_cases h2 : ch = 'e' ∨ ch = 'E'
      · refine .inl fun r r' y => ?_
        simp only [numberLoop, if_neg h0, if_neg h1, if_pos h2]
        exact .of_length (Nat.lt_succ_of_le (readExponentPart_len _ _ _ _))
      by_cases h3 : (c.luajit && (isU ch || isL ch || isI ch)) = true
      · refine .inl fun r r' y => ?_
        simp only [numberLoop, if_neg h0, if_neg h1, if_neg h2, if_pos h3]
        intro t ht
        exact Loc.of_length (readLuajitSuffix_pos ht) t ht
      exact .inr ⟨fun r => by simp only [numberLoop, if_neg h0, if_neg h1, if_neg h2, if_neg h3], fun r => by simp only [numberLoop, if_neg h0, if_neg h1, if_neg h2, if_neg h3]⟩
    · intro ch r h
      simp [numberLoop, blank_not h]
  | cons x w ih =>
    simp only [List.cons_append, numberLoop]
    split
    · exact ih _ _ _ _
    · split
      · split
        · exact .invalid
        · exact ih _ _ _ _
      · split
        · exact readExponentPart_loc hf _ _ _ _ _
        · split
          · exact readLuajitSuffix_loc hf _ _ _ _ _
          · exact .early

theorem finishPrefixed_loc {n : Text} : Loc rest rest' (finishPrefixed st n ⟨rest, p⟩) (finishPrefixed st' n ⟨rest', p'⟩) := by
  unfold finishPrefixed
  split
  · exact .invalid
  · exact .create

theorem finishPrefixed_early {n : Text} {x : Char} {w : Text} {r' : ReadRes} : Loc rest rest' (finishPrefixed st n ⟨x :: (w ++ rest), p⟩) r' := by
  unfold finishPrefixed
  split
  · exact .invalid
  · exact .early

theorem hexLoop_loc (hf : Follows rest rest') (w : Text) (p p' : Position) (n : Text) (hit : Bool) :
    Loc rest rest' (hexLoop c st (w ++ rest) p n hit) (hexLoop c st' (w ++ rest') p' n hit) := by
  induction w generalizing p p' n hit with
  | nil =>
    refine Loc.stop (F := fun l => hexLoop c st l p n hit) (F' := fun l => hexLoop c st' l p' n hit) (G := fun l => finishPrefixed st n ⟨l, p⟩) (G' := fun l => finishPrefixed st' n ⟨l, p'⟩) hf ?_ rfl rfl ?_ ?_
    · exact finishPrefixed_loc
    · intro ch
      by_cases h0 : isHexDigit ch = true
      · refine .inl fun r r' y => ?_
        simp only [hexLoop, if_pos h0]
        exact .of_length (Nat.lt_succ_of_le (hexLoop_len _ _ _ _))
      by_cases h1 : (ch = '_' && c.luau) = true
      · refine .inl fun r r' y => ?_
        simp only [hexLoop, if_neg h0, if_pos h1]
        exact .of_length (Nat.lt_succ_of_le (hexLoop_len _ _ _ _))
      by_cases h2 : (ch = '.' && c.lua52) = true
      · refine .inl fun r r' y => ?_
        simp only [hexLoop, if_neg h0, if_neg h1, if_pos h2]
        split
        · exact .invalid
        · exact .of_length (Nat.lt_succ_of_le (hexLoop_len _ _ _ _))
      by_cases h3 : ((ch = 'p' || ch = 'P') && c.lua52) = true
      · refine .inl fun r r' y => ?_
        simp only [hexLoop, if_neg h0, if_neg h1, if_neg h2, if_pos h3]
        split
        · exact .invalid
        · exact .of_length (Nat.lt_succ_of_le (readExponentPart_len _ _ _ _))
      by_cases h4 : (c.luajit && (isU ch || isL ch || isI ch)) = true
      · refine .inl fun r r' y => ?_
        simp only [hexLoop, if_neg h0, if_neg h1, if_neg h2, if_neg h3, if_pos h4]
        intro t ht
        exact Loc.of_length (readLuajitSuffix_pos ht) t ht
      exact .inr ⟨fun r => by simp only [hexLoop, if_neg h0, if_neg h1, if_neg h2, if_neg h3, if_neg h4], fun r => by simp only [hexLoop, if_neg h0, if_neg h1, if_neg h2, if_neg h3, if_neg h4]⟩
    · intro ch r h
      simp [hexLoop, blank_not h]
  | cons x w ih =>
    simp only [List.cons_append, hexLoop]
    split
    · exact ih _ _ _ _
    · split
      · exact ih _ _ _ _
      · split
        · split
          · exact .invalid
          · exact ih _ _ _ _
        · split
          · split
            · exact .invalid
            · exact readExponentPart_loc hf _ _ _ _ _
          · split
            · exact readLuajitSuffix_loc hf _ _ _ _ _
            · exact finishPrefixed_early

theorem binaryLoop_loc (hf : Follows rest rest') (w : Text) (p p' : Position) (n : Text) :
    Loc rest rest' (binaryLoop c st (w ++ rest) p n) (binaryLoop c st' (w ++ rest') p' n) := by
  induction w generalizing p p' n with
  | nil =>
    refine Loc.stop (F := fun l => binaryLoop c st l p n) (F' := fun l => binaryLoop c st' l p' n) (G := fun l => finishPrefixed st n ⟨l, p⟩) (G' := fun l => finishPrefixed st' n ⟨l, p'⟩) hf ?_ rfl rfl ?_ ?_
    · exact finishPrefixed_loc
    · intro ch
      by_cases h0 : ch = '0' ∨ ch = '1' ∨ ch = '_'
      · refine .inl fun r r' y => ?_
        simp only [binaryLoop, if_pos h0]
        exact .of_length (Nat.lt_succ_of_le (binaryLoop_len _ _ _))
      by_cases h1 : (c.luajit && (isU ch || isL ch || isI ch)) = true
      · refine .inl fun r r' y => ?_
        simp only [binaryLoop, if_neg h0, if_pos h1]
        intro t ht
        exact Loc.of_length (readLuajitSuffix_pos ht) t ht
      exact .inr ⟨fun r => by simp only [binaryLoop, if_neg h0, if_neg h1], fun r => by simp only [binaryLoop, if_neg h0, if_neg h1]⟩
    · intro ch r h
      simp [binaryLoop, blank_not h]
  | cons x w ih =>
    simp only [List.cons_append, binaryLoop]
    split
    · exact ih _ _ _
    · split
      · exact readLuajitSuffix_loc hf _ _ _ _ _
      · exact finishPrefixed_early

theorem readZero_loc (hf : Follows rest rest') (w : Text) (p p' : Position) :
    Loc rest rest' (readZero c st ⟨w ++ rest, p⟩) (readZero c st' ⟨w ++ rest', p'⟩) := by
  cases w with
  | nil =>
    refine Loc.stop (F := fun l => readZero c st ⟨l, p⟩) (F' := fun l => readZero c st' ⟨l, p'⟩) (G := fun l => readNumber c st ['0'] ⟨l, p⟩) (G' := fun l => readNumber c st' ['0'] ⟨l, p'⟩) hf ?_ rfl rfl ?_ ?_
    · exact numberLoop_loc hf [] _ _ _ _
    · intro ch
      by_cases h0 : ch = 'x' ∨ ch = 'X'
      · refine .inl fun r r' y => ?_
        simp only [readZero, if_pos h0]
        exact .of_length (Nat.lt_succ_of_le (hexLoop_len _ _ _ _))
      by_cases h1 : ((c.luau || c.luajit) && (ch = 'b' || ch = 'B')) = true
      · refine .inl fun r r' y => ?_
        simp only [readZero, if_neg h0, if_pos h1]
        exact .of_length (Nat.lt_succ_of_le (binaryLoop_len _ _ _))
      exact .inr ⟨fun r => by simp only [readZero, if_neg h0, if_neg h1], fun r => by simp only [readZero, if_neg h0, if_neg h1]⟩
    · intro ch r h
      simp [readZero, blank_not h]
  | cons x w =>
    simp only [readZero, List.cons_append]
    split
    · exact hexLoop_loc hf w _ _ _ _
    · split
      · exact binaryLoop_loc hf w _ _ _
      · exact numberLoop_loc hf (x :: w) _ _ _ _

end FM
