import Verif.Proofs.Text
import Verif.Proofs.Symbol

/-! Helper lemmas: what each reader of the tokenizer consumes and returns. -/

namespace FM
open Spec

/-- The specification of a reader started at `s0` (the state at the beginning of the token). -/
def GoodRes (c : Cfg) (s0 : Src) (r : ReadRes) : Prop :=
  ∃ w, w ≠ [] ∧ Reads s0 w r.2 ∧
    match r.1 with
    | .ok t => t.start = s0.pos ∧ t.stop = tokenEnd s0.pos w ∧ t.display = w ∧ t.type ≠ .eof ∧
        TypeWf c t.type r.2.rest
    | .fatal es => ∃ e, es = [e] ∧ e.range = (s0.pos, r.2.pos)
    | .recovered t es => t.start = s0.pos ∧ t.stop = r.2.pos ∧ canRecover t.type = true ∧
        ∃ e, es = [e] ∧ e.range = (s0.pos, r.2.pos)

theorem tokenEnd_of_not_nl {p : Position} {w : Text} (h : w.getLast? ≠ some '\n') :
    tokenEnd p w = p.adv w := by simp [tokenEnd, h]

theorem goodRes_create {c : Cfg} {s0 s : Src} {w : Text} {ty : TokenType} (hw : w ≠ [])
    (hr : Reads s0 w s) (hd : ty.display = w) (hnl : w.getLast? ≠ some '\n') (he : ty ≠ .eof)
    (hwf : TypeWf c ty s.rest) : GoodRes c s0 (create s0.pos ty s) :=
  ⟨w, hw, hr, rfl, by rw [tokenEnd_of_not_nl hnl]; exact hr.pos, hd, he, hwf⟩

theorem goodRes_recovered {c : Cfg} {s0 s : Src} {w : Text} {ty : TokenType} {e : TokErrType} (hw : w ≠ [])
    (hr : Reads s0 w s) (he : canRecover ty = true) :
    GoodRes c s0 (createRecovered s0.pos ty [⟨e, (s0.pos, s.pos)⟩] s) :=
  ⟨w, hw, hr, rfl, rfl, he, _, rfl, rfl⟩

theorem createRecovered_nil (start : Position) (ty : TokenType) (s : Src) :
    createRecovered start ty [] s = create start ty s := rfl

theorem createRecovered_cons (start : Position) (ty : TokenType) (e : TokErr) (es : List TokErr) (s : Src) :
    createRecovered start ty (e :: es) s = (.recovered ⟨start, s.pos, ty⟩ (e :: es), s) := rfl

/-! ## Words -/

theorem isWordChar_iff (ch : Char) : (isIdentStart ch || isDigit ch) = isWordChar ch := by
  simp [isWordChar, isIdentStart, isDigit, Bool.or_assoc]

theorem identLoop_spec (rest : List Char) (p : Position) (acc : Text) :
    ∃ w, (identLoop rest p acc).1 = acc ++ w ∧ Reads ⟨rest, p⟩ w (identLoop rest p acc).2 ∧
      (∀ x ∈ w, isWordChar x) ∧ startsWith isWordChar (identLoop rest p acc).2.rest = false := by
  induction rest generalizing p acc with
  | nil => exact ⟨[], by simp [identLoop], .refl _, by simp, rfl⟩
  | cons ch r ih =>
    unfold identLoop
    split
    · rename_i h
      obtain ⟨w, h1, h2, h3, h4⟩ := ih (p.advance ch) (acc ++ [ch])
      refine ⟨ch :: w, by simp [h1], h2.cons, ?_, h4⟩
      intro x hx
      rcases List.mem_cons.1 hx with rfl | hx
      · rw [← isWordChar_iff]; exact h
      · exact h3 x hx
    · rename_i h
      refine ⟨[], by simp, .refl _, by simp, ?_⟩
      simp only [startsWith]
      rw [← isWordChar_iff]
      simpa using h

theorem isWord_cons {ch : Char} {w : Text} (h : isIdentStart ch = true) (hw : ∀ x ∈ w, isWordChar x) :
    IsWord (ch :: w) := by
  refine ⟨by rw [← isWordChar_iff]; simp [h], ?_, hw⟩
  simp only [isIdentStart] at h
  intro ⟨h1, h2⟩
  simp only [Bool.or_eq_true, Bool.and_eq_true, decide_eq_true_eq, beq_iff_eq] at h
  have e1 : ch.toNat ≤ 57 := h2
  rcases h with (⟨h, _⟩ | ⟨h, _⟩) | h
  · have : 97 ≤ ch.toNat := h
    omega
  · have : 65 ≤ ch.toNat := h
    omega
  · subst h; revert e1; decide

theorem isWord_getLast {w : Text} (h : ∀ x ∈ w, isWordChar x) : w.getLast? ≠ some '\n' := by
  intro hl
  have := h _ (List.mem_of_getLast? hl)
  revert this; decide

theorem isWord_all {w : Text} (h : IsWord w) : ∀ x ∈ w, isWordChar x := by
  cases w with
  | nil => simp
  | cons ch w =>
    intro x hx
    rcases List.mem_cons.1 hx with rfl | hx
    · exact h.1
    · exact h.2.2 x hx

theorem readIdent_good {c : Cfg} {s0 : Src} {ch : Char} {r : List Char} (h0 : s0.rest = ch :: r)
    (h : isIdentStart ch = true) : GoodRes c s0 (readIdent c s0.pos ch ⟨r, s0.pos.advance ch⟩) := by
  obtain ⟨w, h1, h2, h3, h4⟩ := identLoop_spec r (s0.pos.advance ch) [ch]
  unfold readIdent
  have hr : Reads s0 (ch :: w) (identLoop r (s0.pos.advance ch) [ch]).2 := by
    have := h2.cons
    cases s0; simp only at h0; subst h0; exact this
  have hword : IsWord (ch :: w) := isWord_cons h h3
  simp only [List.singleton_append] at h1
  simp only [h1]
  refine goodRes_create (w := ch :: w) (by simp) hr ?_ (isWord_getLast (isWord_all hword)) ?_ ?_
  · split
    · rename_i y hy
      exact (Symbol.fromStr_some hy).1
    · rfl
  · split <;> simp
  · split
    · rename_i y hy
      exact ⟨(enabled_iff _ _).2 (Symbol.fromStr_some hy).2,
        fun hw => ⟨reserved_of_word hw (Symbol.fromStr_some hy).2, h4⟩⟩
    · rename_i hy
      exact ⟨hword, fun hres => by obtain ⟨y, h⟩ := fromStr_of_reserved hres; rw [hy] at h; simp at h, h4⟩

/-! ## Whitespace -/

theorem wsLoop_spec (rest : List Char) (p : Position) (acc : Text) (e : Position)
    (start : Position) (hacc : acc ≠ []) (hb : ∀ x ∈ acc, IsBlank x) (hn : '\n' ∉ acc)
    (hp : p = start.adv acc) (he : e = p) :
    ∃ w, (wsLoop rest p acc e).1 = acc ++ w ∧ Reads ⟨rest, p⟩ w (wsLoop rest p acc e).2.2 ∧
      (wsLoop rest p acc e).2.1 = tokenEnd start (acc ++ w) ∧
      (∀ x ∈ acc ++ w, IsBlank x) ∧ '\n' ∉ (acc ++ w).dropLast := by
  have hnl : acc.getLast? ≠ some '\n' := fun h => hn (List.mem_of_getLast? h)
  have hdl : '\n' ∉ acc.dropLast := fun h => hn (List.dropLast_subset _ h)
  have base : ∃ w, acc = acc ++ w ∧ Reads ⟨rest, p⟩ w ⟨rest, p⟩ ∧ e = tokenEnd start (acc ++ w) ∧
      (∀ x ∈ acc ++ w, IsBlank x) ∧ '\n' ∉ (acc ++ w).dropLast := by
    refine ⟨[], by simp, .refl _, ?_, by simpa using hb, by simpa using hdl⟩
    rw [List.append_nil, tokenEnd_of_not_nl hnl, he, hp]
  induction rest generalizing p acc e with
  | nil => simpa [wsLoop] using base
  | cons ch r ih =>
    unfold wsLoop
    split
    · rename_i h
      have hne : ch ≠ '\n' := by rintro rfl; revert h; decide
      have hb' : ∀ x ∈ acc ++ [ch], IsBlank x := by
        intro x hx
        rcases List.mem_append.1 hx with hx | hx
        · exact hb x hx
        · simp at hx; subst hx
          rcases h with h | h
          · exact .inl h
          · exact .inr (.inl h)
      have hn' : '\n' ∉ acc ++ [ch] := by
        simp [hn]; exact fun h => hne h.symm
      have hp' : p.advance ch = start.adv (acc ++ [ch]) := by simp [hp]
      have he' : (⟨e.bytes + ch.utf8Size, e.line, e.character + 1⟩ : Position) = p.advance ch := by
        simp [Position.advance, hne, he]
      have hnl' : (acc ++ [ch]).getLast? ≠ some '\n' := by simpa using hne
      obtain ⟨w, h1, h2, h3, h4, h5⟩ := ih (p.advance ch) (acc ++ [ch])
        ⟨e.bytes + ch.utf8Size, e.line, e.character + 1⟩ (by simp) hb' hn' hp' he' hnl'
        (by simpa using hn)
        ⟨[], by simp, .refl _, by rw [List.append_nil, tokenEnd_of_not_nl hnl', he', hp'],
          by simpa using hb', by simpa using hn⟩
      refine ⟨ch :: w, by simpa using h1, h2.cons, by simpa using h3, by simpa using h4, by simpa using h5⟩
    · split
      · rename_i h
        subst h
        refine ⟨['\n'], rfl, Reads.cons (.refl _), ?_, ?_, by simpa using hn⟩
        · simp [tokenEnd, Position.advance, ← hp, he]
        · intro x hx
          rcases List.mem_append.1 hx with hx | hx
          · exact hb x hx
          · simp at hx; subst hx; simp [IsBlank]
      · split
        · rename_i h
          subst h
          split
          · rename_i r'
            refine ⟨['\r', '\n'], rfl, Reads.cons (Reads.cons (.refl _)), ?_, ?_, ?_⟩
            · simp [tokenEnd, Position.advance, List.dropLast_append_of_ne_nil, ← hp, he, Nat.add_assoc]
            · intro x hx
              rcases List.mem_append.1 hx with hx | hx
              · exact hb x hx
              · simp at hx; rcases hx with rfl | rfl <;> simp [IsBlank]
            · simp [List.dropLast_append_of_ne_nil, hn]
          · exact base
        · exact base

theorem readWhitespace_good {c : Cfg} {s0 : Src} {ch : Char} {r : List Char} (h0 : s0.rest = ch :: r)
    (h : ch = ' ' ∨ ch = '\t' ∨ ch = '\r') :
    GoodRes c s0 (readWhitespace s0.pos ch ⟨r, s0.pos.advance ch⟩) := by
  have hne : ch ≠ '\n' := by rintro rfl; revert h; decide
  have hb : IsBlank ch := by
    rcases h with h | h | h
    · exact .inl h
    · exact .inr (.inl h)
    · exact .inr (.inr (.inl h))
  obtain ⟨w, h1, h2, h3, h4, h5⟩ := wsLoop_spec r (s0.pos.advance ch) [ch]
    ⟨s0.pos.bytes + ch.utf8Size, s0.pos.line, s0.pos.character + 1⟩ s0.pos (by simp)
    (by simpa using hb) (by simpa using fun h => hne h.symm) (by simp) (by simp [Position.advance, hne])
  unfold readWhitespace
  refine ⟨ch :: w, by simp, ?_, rfl, ?_, ?_, by simp, ?_⟩
  · have := h2.cons
    cases s0; simp only at h0; subst h0; exact this
  · simpa using h3
  · simpa [Token.display, TokenType.display] using h1
  · simp only [TypeWf]
    simp only [List.singleton_append] at h1 h4 h5
    rw [h1]
    exact ⟨by simp, h4, h5⟩

/-! ## Numbers -/

/-- The specification of the number readers. -/
def NumGood (s0 : Src) (k : Nat) (r : ReadRes) : Prop :=
  ∃ w, w ≠ [] ∧ Reads s0 w r.2 ∧
    match r.1 with
    | .ok t => t = ⟨s0.pos, r.2.pos, .number w⟩ ∧ w.getLast? ≠ some '\n' ∧ w.count '.' ≤ k
    | .recovered t es =>
      t = ⟨s0.pos, r.2.pos, .number w⟩ ∧ es = [⟨.invalidNumber, (s0.pos, r.2.pos)⟩]
    | .fatal _ => False

theorem numGood_create {s0 s : Src} {w : Text} {k : Nat} (hw : w ≠ []) (hr : Reads s0 w s)
    (hn : w.getLast? ≠ some '\n') (hk : w.count '.' ≤ k) :
    NumGood s0 k (create s0.pos (.number w) s) :=
  ⟨w, hw, hr, rfl, hn, hk⟩

theorem eatInvalidNumber_good {s0 : Src} {k : Nat} (rest : List Char) (p : Position) (w : Text) (hw : w ≠ [])
    (hr : Reads s0 w ⟨rest, p⟩) : NumGood s0 k (eatInvalidNumber s0.pos rest p w) := by
  induction rest generalizing p w with
  | nil => exact ⟨w, hw, hr, rfl, rfl⟩
  | cons ch r ih =>
    unfold eatInvalidNumber
    split
    · exact ⟨w, hw, hr, rfl, rfl⟩
    · exact ih _ _ (by simp) hr.snoc

theorem count_snoc_ne {w : Text} {x ch : Char} (h : ch ≠ x) : (w ++ [ch]).count x = w.count x := by
  simp [List.count_append, h]

theorem isDigit_ne {ch x : Char} (h : isDigit ch = true) (hx : isDigit x = false) : ch ≠ x := by
  rintro rfl; simp [h] at hx

theorem digit_or {c : Cfg} {ch : Char} (h : (isDigit ch || (c.luau && ch == '_')) = true) :
    ch ≠ '\n' ∧ ch ≠ '.' := by
  simp only [Bool.or_eq_true, Bool.and_eq_true, beq_iff_eq] at h
  rcases h with h | ⟨_, rfl⟩
  · exact ⟨isDigit_ne h (by decide), isDigit_ne h (by decide)⟩
  · decide

theorem exponentLoop_good {c : Cfg} {s0 : Src} {k : Nat} (rest : List Char) (p : Position) (w : Text)
    (hw : w ≠ []) (hr : Reads s0 w ⟨rest, p⟩) (hn : w.getLast? ≠ some '\n') (hk : w.count '.' ≤ k) :
    NumGood s0 k (exponentLoop c s0.pos rest p w) := by
  induction rest generalizing p w with
  | nil => exact numGood_create hw hr hn hk
  | cons ch r ih =>
    unfold exponentLoop
    split
    · rename_i h
      have := digit_or h
      exact ih _ _ (by simp) hr.snoc (by simpa using this.1) (by rwa [count_snoc_ne this.2])
    · exact numGood_create hw hr hn hk

theorem exponentDigits_good {c : Cfg} {s0 : Src} {k : Nat} (rest : List Char) (p : Position) (w : Text)
    (hw : w ≠ []) (hr : Reads s0 w ⟨rest, p⟩) (hn : w.getLast? ≠ some '\n') (hk : w.count '.' ≤ k) :
    NumGood s0 k (exponentDigits c s0.pos rest p w) := by
  unfold exponentDigits
  split
  · exact eatInvalidNumber_good _ _ _ hw hr
  · exact exponentLoop_good _ _ _ hw hr hn hk

theorem readExponentPart_good {c : Cfg} {s0 : Src} {k : Nat} (m : Char) (r : List Char) (p : Position)
    (w : Text) (hr : Reads s0 w ⟨m :: r, p⟩) (hm : m ≠ '\n' ∧ m ≠ '.') (hk : w.count '.' ≤ k) :
    NumGood s0 k (readExponentPart c s0.pos m r p w) := by
  have hk' : (w ++ [m]).count '.' ≤ k := by rwa [count_snoc_ne hm.2]
  have hn' : (w ++ [m]).getLast? ≠ some '\n' := by simpa using hm.1
  unfold readExponentPart
  split
  · exact exponentDigits_good _ _ _ (by simp) hr.snoc hn' hk'
  · rename_i ch r'
    split
    · rename_i h
      have hne : ch ≠ '\n' ∧ ch ≠ '.' := by rcases h with rfl | rfl <;> decide
      refine exponentDigits_good _ _ _ (by simp) hr.snoc.snoc ?_ ?_
      · simpa using hne.1
      · rwa [count_snoc_ne hne.2]
    · exact exponentDigits_good _ _ _ (by simp) hr.snoc hn' hk'

theorem suffixChar {ch : Char} (h : isU ch = true ∨ isL ch = true ∨ isI ch = true) : ch ≠ '\n' ∧ ch ≠ '.' := by
  simp only [isU, isL, isI, Bool.or_eq_true, beq_iff_eq] at h
  rcases h with (rfl | rfl) | (rfl | rfl) | (rfl | rfl) <;> decide

theorem readLuajitSuffix_good {s0 : Src} {k : Nat} (rest : List Char) (p : Position) (w : Text)
    (hw : w ≠ []) (hr : Reads s0 w ⟨rest, p⟩) (hn : w.getLast? ≠ some '\n') (hk : w.count '.' ≤ k) :
    NumGood s0 k (readLuajitSuffix s0.pos rest p w) := by
  induction rest generalizing p w with
  | nil => exact numGood_create hw hr hn hk
  | cons ch r ih =>
    unfold readLuajitSuffix
    split
    · rename_i h
      have hne := suffixChar (.inl h)
      split
      · exact eatInvalidNumber_good _ _ _ (by simp) hr.snoc
      · exact ih _ _ (by simp) hr.snoc (by simpa using hne.1) (by rwa [count_snoc_ne hne.2])
    · split
      · rename_i h
        have hne := suffixChar (.inr (.inl h))
        split
        · rename_i ch' r'
          split
          · rename_i h'
            have hne' := suffixChar (.inr (.inl h'))
            refine numGood_create (by simp) hr.snoc.snoc (by simpa using hne'.1) ?_
            rwa [count_snoc_ne hne'.2, count_snoc_ne hne.2]
          · exact eatInvalidNumber_good _ _ _ (by simp) hr.snoc
        · exact eatInvalidNumber_good _ _ _ (by simp) hr.snoc
      · split
        · rename_i h
          have hne := suffixChar (.inr (.inr h))
          exact numGood_create (by simp) hr.snoc (by simpa using hne.1) (by rwa [count_snoc_ne hne.2])
        · exact eatInvalidNumber_good _ _ _ hw hr

theorem numberLoop_good {c : Cfg} {s0 : Src} {k : Nat} (rest : List Char) (p : Position) (w : Text) (hit : Bool)
    (hw : w ≠ []) (hr : Reads s0 w ⟨rest, p⟩) (hn : w.getLast? ≠ some '\n')
    (hk : w.count '.' + (if hit then 0 else 1) ≤ k) :
    NumGood s0 k (numberLoop c s0.pos rest p w hit) := by
  induction rest generalizing p w hit with
  | nil => exact numGood_create hw hr hn (by omega)
  | cons ch r ih =>
    unfold numberLoop
    split
    · rename_i h
      have := digit_or h
      exact ih _ _ _ (by simp) hr.snoc (by simpa using this.1) (by rwa [count_snoc_ne this.2])
    · split
      · rename_i h
        subst h
        split
        · exact eatInvalidNumber_good _ _ _ hw hr
        · rename_i hh
          refine ih _ _ _ (by simp) hr.snoc (by simp) ?_
          simp [hh] at hk
          simpa [List.count_append] using hk
      · split
        · rename_i h
          exact readExponentPart_good _ _ _ _ hr (by rcases h with rfl | rfl <;> decide) (by omega)
        · split
          · exact readLuajitSuffix_good _ _ _ hw hr hn (by omega)
          · exact numGood_create hw hr hn (by omega)

theorem finishPrefixed_good {s0 s : Src} {k : Nat} (w : Text) (hw : w ≠ []) (hr : Reads s0 w s)
    (hn : w.getLast? ≠ some '\n') (hk : w.count '.' ≤ k) : NumGood s0 k (finishPrefixed s0.pos w s) := by
  unfold finishPrefixed
  split
  · exact eatInvalidNumber_good _ _ _ hw hr
  · exact numGood_create hw hr hn hk

theorem isHexDigit_ne {ch : Char} (h : isHexDigit ch = true) : ch ≠ '\n' ∧ ch ≠ '.' := by
  constructor <;> (rintro rfl; revert h; decide)

theorem hexLoop_good {c : Cfg} {s0 : Src} {k : Nat} (rest : List Char) (p : Position) (w : Text) (hit : Bool)
    (hw : w ≠ []) (hr : Reads s0 w ⟨rest, p⟩) (hn : w.getLast? ≠ some '\n')
    (hk : w.count '.' + (if hit then 0 else 1) ≤ k) :
    NumGood s0 k (hexLoop c s0.pos rest p w hit) := by
  induction rest generalizing p w hit with
  | nil => exact finishPrefixed_good _ hw hr hn (by omega)
  | cons ch r ih =>
    unfold hexLoop
    split
    · rename_i h
      have := isHexDigit_ne h
      exact ih _ _ _ (by simp) hr.snoc (by simpa using this.1) (by rwa [count_snoc_ne this.2])
    · split
      · rename_i h
        simp only [Bool.and_eq_true, decide_eq_true_eq] at h
        obtain ⟨rfl, _⟩ := h
        exact ih _ _ _ (by simp) hr.snoc (by simp) (by rwa [count_snoc_ne (by decide)])
      · split
        · rename_i h
          simp only [Bool.and_eq_true, decide_eq_true_eq] at h
          obtain ⟨rfl, _⟩ := h
          split
          · exact eatInvalidNumber_good _ _ _ hw hr
          · rename_i hh
            refine ih _ _ _ (by simp) hr.snoc (by simp) ?_
            simp [hh] at hk
            simpa [List.count_append] using hk
        · split
          · rename_i h
            split
            · exact eatInvalidNumber_good _ _ _ hw hr
            · refine readExponentPart_good _ _ _ _ hr ?_ (by omega)
              simp only [Bool.and_eq_true, Bool.or_eq_true, decide_eq_true_eq] at h
              rcases h.1 with rfl | rfl <;> decide
          · split
            · exact readLuajitSuffix_good _ _ _ hw hr hn (by omega)
            · exact finishPrefixed_good _ hw hr hn (by omega)

theorem binaryLoop_good {c : Cfg} {s0 : Src} {k : Nat} (rest : List Char) (p : Position) (w : Text)
    (hw : w ≠ []) (hr : Reads s0 w ⟨rest, p⟩) (hn : w.getLast? ≠ some '\n') (hk : w.count '.' ≤ k) :
    NumGood s0 k (binaryLoop c s0.pos rest p w) := by
  induction rest generalizing p w with
  | nil => exact finishPrefixed_good _ hw hr hn hk
  | cons ch r ih =>
    unfold binaryLoop
    split
    · rename_i h
      have : ch ≠ '\n' ∧ ch ≠ '.' := by rcases h with rfl | rfl | rfl <;> decide
      exact ih _ _ (by simp) hr.snoc (by simpa using this.1) (by rwa [count_snoc_ne this.2])
    · split
      · exact readLuajitSuffix_good _ _ _ hw hr hn hk
      · exact finishPrefixed_good _ hw hr hn hk

theorem NumGood.good {c : Cfg} {s0 : Src} {ch : Char} {rest : List Char} (h0 : s0.rest = ch :: rest)
    (hd : isDigit ch = true ∨ ch = '.') {r : ReadRes} (h : NumGood s0 (if ch = '.' then 2 else 1) r) :
    GoodRes c s0 r := by
  obtain ⟨w, hw, hr, h⟩ := h
  refine ⟨w, hw, hr, ?_⟩
  split at h
  · obtain ⟨h, hn, hk⟩ := h
    rename_i t heq
    rw [heq]
    simp only
    subst h
    refine ⟨rfl, by rw [tokenEnd_of_not_nl hn]; exact hr.pos, rfl, by simp, ?_⟩
    have hh : w.head? = some ch := by
      obtain ⟨h1, _⟩ := hr
      rw [h0] at h1
      cases w with
      | nil => simp at hw
      | cons x w => simp at h1; simp [h1.1]
    refine ⟨?_, by rw [hh]; simpa using hk⟩
    cases w with
    | nil => simp at hw
    | cons x w =>
      simp at hh
      subst hh
      rcases hd with hd | rfl
      · simp [startsWith]; exact .inr (by simpa [isDigit] using hd)
      · rfl
  · rename_i t es heq
    rw [heq]
    obtain ⟨h, h'⟩ := h
    simp only
    subst h
    subst h'
    exact ⟨rfl, rfl, rfl, _, rfl, rfl⟩
  · exact h.elim

theorem src_cons {s0 : Src} {ch : Char} {r : List Char} (h0 : s0.rest = ch :: r) :
    Reads s0 [ch] ⟨r, s0.pos.advance ch⟩ := ⟨by simp [h0], rfl⟩

theorem readNumber_good {c : Cfg} {s0 : Src} {ch : Char} {r : List Char} (h0 : s0.rest = ch :: r)
    (h : isDigit ch = true ∨ ch = '.') :
    GoodRes c s0 (readNumber c s0.pos [ch] ⟨r, s0.pos.advance ch⟩) := by
  refine NumGood.good h0 h (numberLoop_good _ _ _ _ (by simp) (src_cons h0) ?_ ?_)
  · rcases h with h | rfl
    · simpa using isDigit_ne h (by decide)
    · simp
  · by_cases hd : ch = '.'
    · subst hd; simp
    · simp [hd]

theorem readZero_good {c : Cfg} {s0 : Src} {r : List Char} (h0 : s0.rest = '0' :: r) :
    GoodRes c s0 (readZero c s0.pos ⟨r, s0.pos.advance '0'⟩) := by
  unfold readZero
  split
  · rename_i ch r' hr'
    simp only at hr'
    subst hr'
    have h2 : Reads s0 ['0', ch] ⟨r', (s0.pos.advance '0').advance ch⟩ := (src_cons h0).snoc
    split
    · rename_i h
      refine NumGood.good h0 (.inl rfl) (hexLoop_good _ _ _ _ (by simp) h2 ?_ ?_)
      · rcases h with rfl | rfl <;> decide
      · rcases h with rfl | rfl <;> decide
    · split
      · rename_i h
        simp only [Bool.and_eq_true, Bool.or_eq_true, decide_eq_true_eq] at h
        refine NumGood.good h0 (.inl rfl) (binaryLoop_good _ _ _ (by simp) h2 ?_ ?_)
        · rcases h.2 with rfl | rfl <;> decide
        · rcases h.2 with rfl | rfl <;> decide
      · exact readNumber_good h0 (.inl (by decide))
  · exact readNumber_good h0 (.inl (by decide))

/-! ## Quoted strings -/

theorem stringLoop_spec (c : Cfg) (q : Char) (rest : List Char) (p : Position) (lit : Text) (esc z : Bool) :
    ∃ w, Reads ⟨rest, p⟩ w (stringLoop c q rest p lit esc z).2.2 ∧
      ((stringLoop c q rest p lit esc z).2.1 = false → lit ++ w = (stringLoop c q rest p lit esc z).1 ++ [q]) := by
  induction rest generalizing p lit esc z with
  | nil => exact ⟨[], .refl _, by simp [stringLoop]⟩
  | cons ch r ih =>
    have step : ∀ lit' esc' z', lit' = lit ++ [ch] →
        ∃ w, Reads ⟨ch :: r, p⟩ w (stringLoop c q r (p.advance ch) lit' esc' z').2.2 ∧
          ((stringLoop c q r (p.advance ch) lit' esc' z').2.1 = false →
            lit ++ w = (stringLoop c q r (p.advance ch) lit' esc' z').1 ++ [q]) := by
      rintro _ esc' z' rfl
      obtain ⟨w, h1, h2⟩ := ih (p.advance ch) (lit ++ [ch]) esc' z'
      exact ⟨ch :: w, h1.cons, fun h => by rw [← h2 h]; simp⟩
    unfold stringLoop
    split
    · rename_i h
      simp only [Bool.and_eq_true, beq_iff_eq] at h
      exact step _ _ _ (by rw [h.1.2])
    · split
      · exact step _ _ _ rfl
      · split
        · rename_i h
          exact step _ _ _ (by rw [h])
        · split
          · exact step _ _ _ rfl
          · split
            · exact ⟨[ch], Reads.cons (.refl _), by simp⟩
            · split
              · rename_i h
                subst h
                exact ⟨[ch], Reads.cons (.refl _), by simp⟩
              · exact step _ _ _ rfl

theorem quoteType_char {c : Cfg} {q : Char} {qt : Quote} (h : quoteType c q = some qt) :
    qt.char = [q] ∧ qt ≠ .brackets ∧ q ≠ '\n' ∧ (qt = .backtick → c.feat.cfxlua = true) := by
  unfold quoteType at h
  split at h
  · simp at h; subst h; rename_i h; subst h; exact ⟨rfl, by decide, by decide, by simp⟩
  · split at h
    · simp at h; subst h; rename_i h; subst h; exact ⟨rfl, by decide, by decide, by simp⟩
    · split at h
      · rename_i h'
        simp at h; subst h
        simp only [Bool.and_eq_true, decide_eq_true_eq] at h'
        obtain ⟨rfl, h'⟩ := h'
        exact ⟨rfl, by decide, by decide, fun _ => h'⟩
      · simp at h

theorem readString_good {c : Cfg} {s0 : Src} {ch : Char} {r : List Char} {res : ReadRes}
    (h0 : s0.rest = ch :: r) (h : readString c s0.pos ch ⟨r, s0.pos.advance ch⟩ = .ok res) :
    GoodRes c s0 res := by
  unfold readString at h
  split at h
  · simp at h
  · rename_i qt hqt
    obtain ⟨hq1, hq2, hq3, hq4⟩ := quoteType_char hqt
    obtain ⟨w, h1, h2⟩ := stringLoop_spec c ch r (s0.pos.advance ch) [] false false
    have hr := (src_cons h0).trans h1
    simp only [Outcome.ok.injEq] at h
    subst h
    cases hrec : (stringLoop c ch r (s0.pos.advance ch) [] false false).2.1
    · simp only [Bool.false_eq_true, if_false, createRecovered_nil]
      have h2 := h2 hrec
      simp only [List.nil_append] at h2
      rw [h2] at hr
      refine goodRes_create (w := _) (by simp) hr ?_ ?_ (by simp) ?_
      · simp [TokenType.display, hq2, hq1]
      · rw [← List.append_assoc, List.getLast?_concat]; simpa using hq3
      · cases qt <;> simp_all [TypeWf]
    · simp only [if_true]
      exact goodRes_recovered (by simp) hr rfl

/-! ## Long brackets -/

theorem eqLoop_spec (rest : List Char) (p : Position) (n : Nat) :
    ∃ k, (eqLoop rest p n).1 = n + k ∧ Reads ⟨rest, p⟩ (List.replicate k '=') (eqLoop rest p n).2 := by
  induction rest generalizing p n with
  | nil => exact ⟨0, rfl, .refl _⟩
  | cons ch r ih =>
    unfold eqLoop
    split
    · rename_i h
      subst h
      obtain ⟨k, h1, h2⟩ := ih (p.advance '=') (n + 1)
      exact ⟨k + 1, by omega, by rw [List.replicate_succ]; exact h2.cons⟩
    · exact ⟨0, rfl, .refl _⟩

theorem closeEqLoop_spec (k : Nat) (rest : List Char) (p : Position) :
    (closeEqLoop k rest p).1 ≤ k ∧
    Reads ⟨rest, p⟩ (List.replicate (closeEqLoop k rest p).1 '=') (closeEqLoop k rest p).2 ∧
    ((closeEqLoop k rest p).1 < k → (closeEqLoop k rest p).2.rest.head? ≠ some '=') := by
  induction k generalizing rest p with
  | zero => exact ⟨Nat.le_refl _, .refl _, by simp [closeEqLoop]⟩
  | succ k ih =>
    cases rest with
    | nil => exact ⟨by simp [closeEqLoop], .refl _, by simp [closeEqLoop]⟩
    | cons ch r =>
      unfold closeEqLoop
      split
      · rename_i h
        subst h
        obtain ⟨h1, h2, h3⟩ := ih r (p.advance '=')
        refine ⟨by simp; omega, ?_, ?_⟩
        · simp only [List.replicate_succ]; exact h2.cons
        · intro h; exact h3 (by simp at h; exact h)
      · rename_i h
        exact ⟨by simp, .refl _, by simp [h]⟩

/-- Occurrences of `close n` in `w ++ close n`, relative form used in the induction. -/
theorem closesFirst_cons {n : Nat} {ch : Char} {w : Text} (h : ch ≠ ']')
    (hw : ClosesFirst (closeBracket n) w) : ClosesFirst (closeBracket n) (ch :: w) := by
  intro u v huv
  cases u with
  | nil => simp [closeBracket] at huv; exact absurd huv.1 h
  | cons x u =>
    simp only [List.cons_append, List.cons.injEq] at huv
    obtain ⟨rfl, huv⟩ := huv
    obtain ⟨rfl, rfl⟩ := hw u v huv
    exact ⟨rfl, rfl⟩

theorem closesFirst_replicate {n k : Nat} {w : Text}
    (hw : ClosesFirst (closeBracket n) w) : ClosesFirst (closeBracket n) (List.replicate k '=' ++ w) := by
  induction k with
  | zero => simpa using hw
  | succ k ih => rw [List.replicate_succ]; exact closesFirst_cons (by decide) ih

/-- After `]` and `k` equal signs, the text goes on with something that does not complete the bracket. -/
theorem closesFirst_partial {n k : Nat} {w : Text} (hk : k ≤ n)
    (hne : k < n → (w ++ closeBracket n).head? ≠ some '=')
    (hne' : k = n → (w ++ closeBracket n).head? ≠ some ']')
    (hw : ClosesFirst (closeBracket n) w) :
    ClosesFirst (closeBracket n) (']' :: (List.replicate k '=' ++ w)) := by
  intro u v huv
  cases u with
  | nil =>
    exfalso
    simp only [closeBracket, List.cons_append, List.nil_append, List.cons.injEq, true_and,
      List.append_assoc] at huv
    have hnk : List.replicate n '=' = List.replicate k '=' ++ List.replicate (n - k) '=' := by
      rw [List.replicate_append_replicate]; congr 1; omega
    have huv' : w ++ closeBracket n = List.replicate (n - k) '=' ++ ([']'] ++ v) := by
      have : List.replicate k '=' ++ (w ++ closeBracket n) =
          List.replicate k '=' ++ (List.replicate (n - k) '=' ++ ([']'] ++ v)) := by
        rw [← List.append_assoc (List.replicate k '=') (List.replicate (n - k) '='), ← hnk]
        simpa [closeBracket] using huv
      exact List.append_cancel_left this
    rcases Nat.lt_or_ge k n with h | h
    · apply hne h
      rw [huv']
      obtain ⟨m, hm⟩ : ∃ m, n - k = m + 1 := ⟨n - k - 1, by omega⟩
      rw [hm, List.replicate_succ]; rfl
    · apply hne' (by omega)
      rw [huv']
      have : n - k = 0 := by omega
      rw [this]; rfl
  | cons x u =>
    simp only [List.cons_append, List.cons.injEq] at huv
    obtain ⟨rfl, huv⟩ := huv
    obtain ⟨rfl, rfl⟩ := closesFirst_replicate hw u v huv
    exact ⟨rfl, rfl⟩

theorem closesFirst_nil (n : Nat) : ClosesFirst (closeBracket n) [] := by
  intro u v huv
  have h := congrArg List.length huv
  simp at h
  constructor
  · cases u with
    | nil => rfl
    | cons x u => simp at h; omega
  · cases v with
    | nil => rfl
    | cons x v => simp at h; omega

theorem bodyLoop_spec (n : Nat) (fuel : Nat) (rest : List Char) (p : Position) (body : Text)
    (hf : rest.length ≤ fuel) :
    (∃ w, (bodyLoop n fuel rest p body).1 = .ok n (body ++ w) ∧
        Reads ⟨rest, p⟩ (w ++ closeBracket n) (bodyLoop n fuel rest p body).2 ∧
        ClosesFirst (closeBracket n) w) ∨
    (∃ w, (bodyLoop n fuel rest p body).1 = .unclosed n (body ++ w) ∧
        Reads ⟨rest, p⟩ w (bodyLoop n fuel rest p body).2 ∧ (bodyLoop n fuel rest p body).2.rest = []) := by
  induction fuel generalizing rest p body with
  | zero =>
    have : rest = [] := by simpa using hf
    subst this
    exact .inr ⟨[], by simp [bodyLoop], .refl _, rfl⟩
  | succ fuel ih =>
    cases rest with
    | nil => exact .inr ⟨[], by simp [bodyLoop], .refl _, rfl⟩
    | cons ch r =>
      unfold bodyLoop
      split
      · rename_i h
        subst h
        obtain ⟨hk, hreads, hhead⟩ := closeEqLoop_spec n r (p.advance ']')
        simp only
        generalize hkk : (closeEqLoop n r (p.advance ']')).1 = k at *
        generalize hss : (closeEqLoop n r (p.advance ']')).2 = s at *
        have hr : Reads ⟨']' :: r, p⟩ (']' :: List.replicate k '=') s := hreads.cons
        have hlen : s.rest.length ≤ fuel := by
          have := hreads.length; simp at this hf; omega
        have cont (hne : k < n → s.rest.head? ≠ some '=') (hne' : k = n → s.rest.head? ≠ some ']') :
          (∃ w, (bodyLoop n fuel s.rest s.pos (body ++ ']' :: List.replicate k '=')).1 = .ok n (body ++ w) ∧
            Reads ⟨']' :: r, p⟩ (w ++ closeBracket n)
              (bodyLoop n fuel s.rest s.pos (body ++ ']' :: List.replicate k '=')).2 ∧
            ClosesFirst (closeBracket n) w) ∨
          (∃ w, (bodyLoop n fuel s.rest s.pos (body ++ ']' :: List.replicate k '=')).1 =
              .unclosed n (body ++ w) ∧
            Reads ⟨']' :: r, p⟩ w (bodyLoop n fuel s.rest s.pos (body ++ ']' :: List.replicate k '=')).2 ∧
            (bodyLoop n fuel s.rest s.pos (body ++ ']' :: List.replicate k '=')).2.rest = []) := by
          rcases ih s.rest s.pos (body ++ ']' :: List.replicate k '=') hlen with
            ⟨w, h1, h2, h3⟩ | ⟨w, h1, h2, h3⟩
          · refine .inl ⟨']' :: (List.replicate k '=' ++ w), by rw [h1]; simp, ?_, ?_⟩
            · have := hr.trans h2
              simpa using this
            · have hs : s.rest = (w ++ closeBracket n) ++ (bodyLoop n fuel s.rest s.pos
                (body ++ ']' :: List.replicate k '=')).2.rest := h2.1
              have hd : s.rest.head? = (w ++ closeBracket n).head? := by
                rw [hs]
                cases w <;> simp [closeBracket]
              refine closesFirst_partial hk ?_ ?_ h3
              · intro hlt; rw [← hd]; exact hne hlt
              · intro heq; rw [← hd]; exact hne' heq
          · refine .inr ⟨']' :: (List.replicate k '=' ++ w), by rw [h1]; simp, ?_, h3⟩
            have := hr.trans h2
            simpa using this
        split
        · rename_i hlt
          exact cont hhead (by omega)
        · split
          · rename_i hlt hcur
            have hkn : k = n := by omega
            subst hkn
            refine .inl ⟨[], by simp, ?_, closesFirst_nil _⟩
            have := hr.trans (advance_of_current hcur)
            simpa [closeBracket] using this
          · rename_i hlt hcur
            exact cont hhead (fun _ => hcur)
      · rename_i h
        rcases ih r (p.advance ch) (body ++ [ch]) (by simpa using hf) with ⟨w, h1, h2, h3⟩ | ⟨w, h1, h2, h3⟩
        · exact .inl ⟨ch :: w, by rw [h1]; simp, h2.cons, closesFirst_cons h h3⟩
        · exact .inr ⟨ch :: w, by rw [h1]; simp, h2.cons, h3⟩

/-- The text `=…=[` after the first bracket of a long bracket of level `n`. -/
theorem readMultiLineBody_spec (s : Src) :
    (∃ n body, (readMultiLineBody s).1 = .ok n body ∧
      Reads s (List.replicate n '=' ++ ['['] ++ body ++ closeBracket n) (readMultiLineBody s).2 ∧
      ClosesFirst (closeBracket n) body) ∨
    (∃ n body, (readMultiLineBody s).1 = .unclosed n body ∧
      Reads s (List.replicate n '=' ++ ['['] ++ body) (readMultiLineBody s).2 ∧
      (readMultiLineBody s).2.rest = []) ∨
    (∃ n, (readMultiLineBody s).1 = .notMultiLine n ∧
      Reads s (List.replicate n '=') (readMultiLineBody s).2) := by
  unfold readMultiLineBody
  obtain ⟨k, h1, h2⟩ := eqLoop_spec s.rest s.pos 0
  simp only [Nat.zero_add] at h1
  simp only [h1]
  generalize (eqLoop s.rest s.pos 0).2 = s1 at *
  have h2' : Reads s (List.replicate k '=') s1 := h2
  split
  · rename_i hc
    have h3 := h2'.trans (advance_of_current hc)
    rcases bodyLoop_spec k s1.advance.rest.length s1.advance.rest s1.advance.pos [] (Nat.le_refl _) with
      ⟨w, e1, e2, e3⟩ | ⟨w, e1, e2, e3⟩
    · refine .inl ⟨k, w, by simpa using e1, ?_, e3⟩
      have := h3.trans e2
      simpa using this
    · refine .inr (.inl ⟨k, w, by simpa using e1, ?_, e3⟩)
      have := h3.trans e2
      simpa using this
  · exact .inr (.inr ⟨k, rfl, h2'⟩)

/-! ## Comments -/

theorem lineLoop_spec (rest : List Char) (p : Position) (acc : Text) :
    ∃ w, (lineLoop rest p acc).1 = acc ++ w ∧ Reads ⟨rest, p⟩ w (lineLoop rest p acc).2 ∧ '\n' ∉ w ∧
      ((lineLoop rest p acc).2.rest = [] ∨ (lineLoop rest p acc).2.rest.head? = some '\n') := by
  induction rest generalizing p acc with
  | nil => exact ⟨[], by simp [lineLoop], .refl _, by simp, .inl rfl⟩
  | cons ch r ih =>
    unfold lineLoop
    split
    · rename_i h
      subst h
      exact ⟨[], by simp, .refl _, by simp, .inr rfl⟩
    · rename_i h
      obtain ⟨w, h1, h2, h3, h4⟩ := ih (p.advance ch) (acc ++ [ch])
      refine ⟨ch :: w, by simpa using h1, h2.cons, ?_, h4⟩
      simp [h3]; exact fun e => h e.symm

theorem getLast?_append_ne {v w : Text} {x : Char} (hv : x ∉ v) (hw : x ∉ w) :
    (v ++ w).getLast? ≠ some x := by
  intro h
  have := List.mem_of_getLast? h
  simp [hv, hw] at this

theorem closeBracket_getLast (n : Nat) (v : Text) : (v ++ closeBracket n).getLast? ≠ some '\n' := by
  have : closeBracket n = (']' :: List.replicate n '=') ++ [']'] := by simp [closeBracket]
  rw [this, ← List.append_assoc, List.getLast?_concat]
  decide

theorem readComment_good {c : Cfg} {s0 s : Src} (h : Reads s0 ['-', '-'] s) :
    GoodRes c s0 (commentToken s0.pos (readComment s)) := by
  have line : ∀ (v : Text) (s1 : Src), Reads s v s1 → '\n' ∉ v →
      GoodRes c s0 (commentToken s0.pos (.singleLineComment (lineLoop s1.rest s1.pos v).1, false,
        (lineLoop s1.rest s1.pos v).2)) := by
    intro v s1 hv hn
    obtain ⟨w, h1, h2, h3, h4⟩ := lineLoop_spec s1.rest s1.pos v
    have hr := (h.trans hv).trans h2
    simp only [commentToken, Bool.false_eq_true, if_false, createRecovered_nil]
    refine goodRes_create (w := ['-', '-'] ++ v ++ w) (by simp) hr ?_ ?_ (by simp) ?_
    · simp [TokenType.display, h1]
    · exact getLast?_append_ne (by simp [hn]) h3
    · simp only [TypeWf, h1]
      exact ⟨by simp [hn, h3], h4⟩
  unfold readComment
  split
  · rename_i s1 hs1
    have hs1 := consume_true hs1
    rcases readMultiLineBody_spec s1 with ⟨n, body, h1, h2, h3⟩ | ⟨n, body, h1, h2, h3⟩ | ⟨n, h1, h2⟩
    · generalize readMultiLineBody s1 = m at *
      obtain ⟨m1, m2⟩ := m
      simp only at h1 h2 h3
      subst h1
      simp only [commentToken, Bool.false_eq_true, if_false, createRecovered_nil]
      have hr := (h.trans hs1).trans h2
      refine goodRes_create (by simp) hr ?_ ?_ (by simp) h3
      · simp [TokenType.display, closeBracket]
      · rw [← List.append_assoc]
        exact closeBracket_getLast _ _
    · generalize readMultiLineBody s1 = m at *
      obtain ⟨m1, m2⟩ := m
      simp only at h1 h2 h3
      subst h1
      simp only [commentToken, if_true]
      have hr := (h.trans hs1).trans h2
      exact goodRes_recovered (by simp) hr rfl
    · generalize readMultiLineBody s1 = m at *
      obtain ⟨m1, m2⟩ := m
      simp only at h1 h2
      subst h1
      exact line ('[' :: List.replicate n '=') m2 (hs1.trans h2) (by simp [List.mem_replicate])
  · rename_i s1 hs1
    obtain ⟨rfl, _⟩ := consume_false hs1
    exact line [] s1 (.refl _) (by simp)

theorem closesFirst_star_nil : ClosesFirst ['*', '/'] [] := by
  intro u v huv
  have h := congrArg List.length huv
  simp at h
  constructor
  · cases u with
    | nil => rfl
    | cons x u => simp at h; omega
  · cases v with
    | nil => rfl
    | cons x v => simp at h; omega

theorem cStyleLoop_spec (rest : List Char) (p : Position) (acc : Text) :
    ∃ w, (cStyleLoop rest p acc).1 = acc ++ w ∧
      ((cStyleLoop rest p acc).2.1 = false →
        Reads ⟨rest, p⟩ (w ++ ['*', '/']) (cStyleLoop rest p acc).2.2 ∧ ClosesFirst ['*', '/'] w) ∧
      ((cStyleLoop rest p acc).2.1 = true → Reads ⟨rest, p⟩ w (cStyleLoop rest p acc).2.2) := by
  induction rest generalizing p acc with
  | nil => exact ⟨[], by simp [cStyleLoop], by simp [cStyleLoop], fun _ => .refl _⟩
  | cons ch r ih =>
    have cont (hne : ¬ (ch = '*' ∧ r.head? = some '/')) : ∃ w,
        (cStyleLoop r (p.advance ch) (acc ++ [ch])).1 = acc ++ w ∧
        ((cStyleLoop r (p.advance ch) (acc ++ [ch])).2.1 = false →
          Reads ⟨ch :: r, p⟩ (w ++ ['*', '/']) (cStyleLoop r (p.advance ch) (acc ++ [ch])).2.2 ∧
          ClosesFirst ['*', '/'] w) ∧
        ((cStyleLoop r (p.advance ch) (acc ++ [ch])).2.1 = true →
          Reads ⟨ch :: r, p⟩ w (cStyleLoop r (p.advance ch) (acc ++ [ch])).2.2) := by
      obtain ⟨w, h1, h2, h3⟩ := ih (p.advance ch) (acc ++ [ch])
      refine ⟨ch :: w, by simp [h1], fun h => ?_, fun h => (h3 h).cons⟩
      obtain ⟨h4, h5⟩ := h2 h
      refine ⟨h4.cons, ?_⟩
      intro u v huv
      cases u with
      | nil =>
        exfalso
        simp only [List.cons_append, List.nil_append, List.cons.injEq] at huv
        apply hne
        refine ⟨huv.1, ?_⟩
        have : r = (w ++ ['*', '/']) ++ _ := h4.1
        rw [this, huv.2]
        rfl
      | cons x u =>
        simp only [List.cons_append, List.cons.injEq] at huv
        obtain ⟨rfl, huv⟩ := huv
        obtain ⟨rfl, rfl⟩ := h5 u v (by simpa using huv)
        exact ⟨rfl, rfl⟩
    unfold cStyleLoop
    split
    · rename_i ch' r'
      split
      · rename_i h
        obtain ⟨rfl, rfl⟩ := h
        refine ⟨[], by simp, fun _ => ⟨Reads.cons (Reads.cons (.refl _)), closesFirst_star_nil⟩, by simp⟩
      · rename_i h
        exact cont (by simpa using h)
    · exact cont (by simp)

/-! ## Interpolated strings -/

theorem unicodeLoop_spec (rest : List Char) (p : Position) (acc : Text) :
    ∃ w, (unicodeLoop rest p acc).1 = acc ++ w ∧ Reads ⟨rest, p⟩ w (unicodeLoop rest p acc).2 := by
  induction rest generalizing p acc with
  | nil => exact ⟨[], by simp [unicodeLoop], .refl _⟩
  | cons ch r ih =>
    cases r with
    | nil => exact ⟨[], by simp [unicodeLoop], .refl _⟩
    | cons ch' r =>
      unfold unicodeLoop
      split
      · exact ⟨[], by simp, .refl _⟩
      · obtain ⟨w, h1, h2⟩ := ih (p.advance ch) (acc ++ [ch])
        exact ⟨ch :: w, by simpa using h1, h2.cons⟩

/-- The character that ended a section. -/
def SectionEnd.text : SectionEnd → Text
  | .brace => ['{']
  | .backtick => ['`']
  | .unclosed => []

theorem sectionLoop_spec (fuel : Nat) (rest : List Char) (p : Position) (lit : Text) (esc z : Bool) :
    ∃ w, (sectionLoop fuel rest p lit esc z).1 = lit ++ w ∧
      Reads ⟨rest, p⟩ (w ++ (sectionLoop fuel rest p lit esc z).2.1.text)
        (sectionLoop fuel rest p lit esc z).2.2 := by
  induction fuel generalizing rest p lit esc z with
  | zero => exact ⟨[], by simp [sectionLoop], .refl _⟩
  | succ fuel ih =>
    cases rest with
    | nil => exact ⟨[], by simp [sectionLoop], .refl _⟩
    | cons ch r =>
      have step : ∀ v s1 lit' esc' z', Reads ⟨ch :: r, p⟩ v s1 → lit' = lit ++ v →
          ∃ w, (sectionLoop fuel s1.rest s1.pos lit' esc' z').1 = lit ++ w ∧
            Reads ⟨ch :: r, p⟩ (w ++ (sectionLoop fuel s1.rest s1.pos lit' esc' z').2.1.text)
              (sectionLoop fuel s1.rest s1.pos lit' esc' z').2.2 := by
        rintro v s1 _ esc' z' hv rfl
        obtain ⟨w, h1, h2⟩ := ih s1.rest s1.pos (lit ++ v) esc' z'
        refine ⟨v ++ w, by simpa using h1, ?_⟩
        have := hv.trans h2
        simpa using this
      have one : Reads ⟨ch :: r, p⟩ [ch] ⟨r, p.advance ch⟩ := Reads.cons (.refl _)
      unfold sectionLoop
      split
      · exact ⟨[], by simp, .refl _⟩
      · split
        · rename_i h
          simp only [Bool.and_eq_true, decide_eq_true_eq] at h
          exact step [ch] ⟨r, _⟩ _ _ _ one (by rw [h.2])
        · split
          · exact step [ch] ⟨r, _⟩ _ _ _ one rfl
          · split
            · rename_i h
              subst h
              split
              · rename_i r'
                split
                · rename_i r''
                  obtain ⟨w, h1, h2⟩ := unicodeLoop_spec r''
                    (((p.advance '\\').advance 'u').advance '{') (lit ++ ['\\', 'u', '{'])
                  refine step (['\\', 'u', '{'] ++ w) _ _ _ _ ?_ (by rw [h1]; simp)
                  exact Reads.cons (Reads.cons (Reads.cons h2))
                · exact step ['\\', 'u'] ⟨_, _⟩ _ _ _ (Reads.cons (Reads.cons (.refl _))) rfl
              · exact step ['\\'] ⟨r, _⟩ _ _ _ one rfl
            · split
              · exact step [ch] ⟨r, _⟩ _ _ _ one rfl
              · split
                · rename_i h
                  subst h
                  exact ⟨[], by simp, one⟩
                · split
                  · rename_i h
                    subst h
                    exact ⟨[], by simp, one⟩
                  · exact step [ch] ⟨r, _⟩ _ _ _ one rfl

/-! ## Symbols -/

theorem symTok_good {c : Cfg} {s0 s : Src} {y : Symbol} {w : Text} (hr : Reads s0 w s) (ht : y.text = w)
    (hg : c.hasAny y.gates = true) (hw : w ≠ [] ∧ w.getLast? ≠ some '\n' ∧ startsWith isWordChar w = false) :
    GoodRes c s0 (symTok s0.pos y s) := by
  refine goodRes_create hw.1 hr ht hw.2.1 (by simp) ⟨(enabled_iff _ _).2 hg, ?_⟩
  rw [ht]
  intro h
  exfalso
  cases w with
  | nil => exact hw.1 rfl
  | cons x w =>
    have h1 := h.1
    have h2 := hw.2.2
    simp only [startsWith] at h2
    rw [h1] at h2
    exact absurd h2 (by simp)

theorem Cfg.hasAny_one (c : Cfg) (v : Ver) : c.hasAny [v] = c.has v := by simp [Cfg.hasAny]
theorem Cfg.hasAny_two (c : Cfg) (v w : Ver) : c.hasAny [v, w] = (c.has v || c.has w) := by simp [Cfg.hasAny]
theorem Cfg.hasAny_three (c : Cfg) (v w x : Ver) :
    c.hasAny [v, w, x] = (c.has v || (c.has w || c.has x)) := by simp [Cfg.hasAny]

end FM
