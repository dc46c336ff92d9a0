import Verif.Proofs.LexicalText

/-! Helper lemmas for C51: words, white space, comments and long strings. -/

namespace FM
open Spec

variable {c : Cfg} {st p : Position} {ty : TokenType} {rest : Text}

/-! ## Words -/

theorem identLoop_out {l : List Char} {acc acc' : Text} : (∃ s, identLoop l p acc = (acc', s) ∧ s.rest = rest) ↔
    ∃ w, l = w ++ rest ∧ acc' = acc ++ w ∧ (∀ x ∈ w, isWordChar x = true) ∧ startsWith isWordChar rest = false := by
  induction l generalizing p acc with
  | nil =>
    simp only [identLoop]
    constructor
    · rintro ⟨s, h, rfl⟩; cases h; exact ⟨[], rfl, by simp, by simp, rfl⟩
    · rintro ⟨w, h, rfl, -⟩
      obtain ⟨rfl, rfl⟩ := List.append_eq_nil_iff.1 h.symm
      exact ⟨⟨[], p⟩, by simp, rfl⟩
  | cons x l ih =>
    unfold identLoop
    rw [isWordChar_iff]
    split
    · rename_i h
      rw [ih]
      constructor
      · rintro ⟨w, rfl, rfl, h1, h2⟩
        exact ⟨x :: w, rfl, by simp, by simpa [h] using h1, h2⟩
      · rintro ⟨w, he, rfl, h1, h2⟩
        cases w with
        | nil => cases he; rw [show isWordChar x = false from h2] at h; cases h
        | cons y w => cases he; exact ⟨w, rfl, by simp, fun y hy => h1 y (.tail _ hy), h2⟩
    · rename_i h
      constructor
      · rintro ⟨s, h', rfl⟩; cases h'; exact ⟨[], rfl, by simp, by simp, by simpa [startsWith] using h⟩
      · rintro ⟨w, he, rfl, h1, h2⟩
        cases w with
        | nil => exact ⟨⟨x :: l, p⟩, by simp, he⟩
        | cons y w => cases he; exact absurd (h1 _ (.head _)) h

theorem isIdentStart_iff {ch : Char} : isIdentStart ch = true ↔ isWordChar ch = true ∧ ¬ ('0' ≤ ch ∧ ch ≤ '9') := by
  constructor
  · intro h; exact ⟨(isWord_cons (w := []) h (by simp)).1, (isWord_cons (w := []) h (by simp)).2.1⟩
  · rintro ⟨h, h'⟩
    rw [← isWordChar_iff, Bool.or_eq_true] at h
    rcases h with h | h
    · exact h
    · exact absurd (by simpa [isDigit] using h) h'

theorem readIdent_out {ch : Char} (hch : isIdentStart ch = true) {r : List Char} : out (readIdent c st ch ⟨r, p⟩) = some (ty, rest) ↔
    ch :: r = ty.display ++ rest ∧ startsWith isWordChar rest = false ∧
      ((∃ t, ty = .identifier t ∧ IsWord t ∧ ¬ Reserved c t) ∨ ∃ y, ty = .symbol y ∧ IsWord y.text ∧ Enabled c y) := by
  have key := fun acc' => @identLoop_out p rest r [ch] acc'
  unfold readIdent
  rw [show identLoop (Src.mk r p).rest (Src.mk r p).pos [ch] = identLoop r p [ch] from rfl]
  generalize identLoop r p [ch] = q at *
  obtain ⟨id, s⟩ := q
  dsimp only
  rw [out_create, Option.some.injEq, Prod.mk.injEq]
  constructor
  · rintro ⟨hty, hs⟩
    obtain ⟨w, rfl, rfl, h1, h2⟩ := (key id).1 ⟨s, rfl, hs⟩
    have hw : IsWord ([ch] ++ w) := isWord_cons hch h1
    split at hty
    · rename_i y hy
      subst hty
      obtain ⟨h3, h4⟩ := Symbol.fromStr_some hy
      refine ⟨?_, h2, .inr ⟨y, rfl, by rwa [h3], (enabled_iff _ _).2 h4⟩⟩
      simp only [TokenType.display, h3]
      rfl
    · rename_i hy
      subst hty
      exact ⟨rfl, h2, .inl ⟨_, rfl, hw, fun hr => by obtain ⟨y, h⟩ := fromStr_of_reserved hr; rw [hy] at h; cases h⟩⟩
  · rintro ⟨he, h2, h⟩
    have fin : ∀ t : Text, IsWord t → ch :: r = t ++ rest → id = t ∧ s.rest = rest := by
      intro t ht he
      cases t with
      | nil => exact ht.elim
      | cons x w =>
        cases he
        obtain ⟨s', h3, h4⟩ := (key (ch :: w)).2 ⟨w, rfl, rfl, ht.2.2, h2⟩
        cases h3
        exact ⟨rfl, h4⟩
    rcases h with ⟨t, rfl, h3, h4⟩ | ⟨y, rfl, h3, h4⟩
    · obtain ⟨rfl, h5⟩ := fin t h3 he
      refine ⟨?_, h5⟩
      split
      · rename_i y hy
        obtain ⟨h6, h7⟩ := Symbol.fromStr_some hy
        exact absurd (h6 ▸ reserved_of_word (by rwa [h6]) h7) h4
      · rfl
    · obtain ⟨rfl, h5⟩ := fin y.text h3 he
      refine ⟨?_, h5⟩
      rw [Symbol.fromStr_text ((enabled_iff _ _).1 h4)]

/-! ## White space -/

/-- What ends white space. -/
def BlankEnd (last rest : Text) : Prop :=
  last = ['\n'] ∨ last = ['\r', '\n'] ∨ last = [] ∧ startsWith (fun ch => ch == ' ' || ch == '\t' || ch == '\n') rest = false ∧ rest.take 2 ≠ ['\r', '\n']

theorem wsLoop_out {l : List Char} {acc acc' : Text} {e : Position} : (∃ e' s, wsLoop l p acc e = (acc', e', s) ∧ s.rest = rest) ↔
    ∃ mid last, l = mid ++ last ++ rest ∧ acc' = acc ++ (mid ++ last) ∧ (∀ x ∈ mid, x = ' ' ∨ x = '\t') ∧ BlankEnd last rest := by
  induction l generalizing p acc e with
  | nil =>
    simp only [wsLoop]
    constructor
    · rintro ⟨_, s, h, rfl⟩; cases h; exact ⟨[], [], rfl, by simp, by simp, .inr (.inr ⟨rfl, rfl, by simp⟩)⟩
    · rintro ⟨w, v, h, rfl, -⟩
      obtain ⟨h', rfl⟩ := List.append_eq_nil_iff.1 h.symm
      obtain ⟨rfl, rfl⟩ := List.append_eq_nil_iff.1 h'
      exact ⟨_, ⟨[], p⟩, by simp; rfl, rfl⟩
  | cons x l ih =>
    have stop : x ≠ ' ' → x ≠ '\t' → x ≠ '\n' → (x :: l).take 2 ≠ ['\r', '\n'] →
        ((∃ e' s, (acc, e, Src.mk (x :: l) p) = (acc', e', s) ∧ s.rest = rest) ↔
          ∃ mid last, x :: l = mid ++ last ++ rest ∧ acc' = acc ++ (mid ++ last) ∧ (∀ x ∈ mid, x = ' ' ∨ x = '\t') ∧ BlankEnd last rest) := by
      intro h1 h2 h3 h4
      constructor
      · rintro ⟨_, s, h, rfl⟩; cases h
        exact ⟨[], [], rfl, by simp, by simp, .inr (.inr ⟨rfl, by simp [startsWith, h1, h2, h3], h4⟩)⟩
      · rintro ⟨mid, last, he, rfl, h5, h6⟩
        cases mid with
        | cons y mid => cases he; exact absurd (h5 _ (.head _)) (not_or.2 ⟨h1, h2⟩)
        | nil =>
          rcases h6 with rfl | rfl | ⟨rfl, -⟩
          · cases he; exact absurd rfl h3
          · cases he; simp at h4
          · exact ⟨_, ⟨x :: l, p⟩, by simp; rfl, he⟩
    unfold wsLoop
    split
    · rename_i h
      rw [ih]
      constructor
      · rintro ⟨mid, last, rfl, rfl, h1, h2⟩
        refine ⟨x :: mid, last, rfl, by simp, fun y hy => ?_, h2⟩
        rcases List.mem_cons.1 hy with rfl | hy
        · exact h
        · exact h1 y hy
      · rintro ⟨mid, last, he, rfl, h1, h2⟩
        cases mid with
        | nil =>
          exfalso
          rcases h2 with rfl | rfl | ⟨rfl, h2, -⟩
          · cases he; simp at h
          · cases he; simp at h
          · have he : x :: l = rest := he
            rw [← he] at h2
            rcases h with rfl | rfl <;> simp [startsWith] at h2
        | cons y mid => cases he; exact ⟨mid, last, rfl, by simp, fun y hy => h1 y (.tail _ hy), h2⟩
    · rename_i h
      rw [not_or] at h
      split
      · rename_i h1
        subst h1
        constructor
        · rintro ⟨_, s, h', rfl⟩; cases h'; exact ⟨[], ['\n'], rfl, by simp, by simp, .inl rfl⟩
        · rintro ⟨mid, last, he, rfl, h1, h2⟩
          cases mid with
          | cons y mid => cases he; exact absurd (h1 _ (.head _)) (not_or.2 h)
          | nil =>
            rcases h2 with rfl | rfl | ⟨rfl, h2, -⟩
            · cases he; exact ⟨_, ⟨rest, _⟩, rfl, rfl⟩
            · cases he
            · have he : '\n' :: l = rest := he
              rw [← he] at h2; simp [startsWith] at h2
      · rename_i h1
        split
        · rename_i h2
          subst h2
          cases l with
          | nil => exact stop (by decide) (by decide) (by decide) (by simp)
          | cons y r =>
            by_cases hy : y = '\n'
            · subst hy
              constructor
              · rintro ⟨_, s, h', rfl⟩; cases h'; exact ⟨[], ['\r', '\n'], rfl, by simp, by simp, .inr (.inl rfl)⟩
              · rintro ⟨mid, last, he, rfl, h1, h2⟩
                cases mid with
                | cons y mid =>
                  simp only [List.cons_append, List.cons.injEq] at he
                  exact absurd (he.1 ▸ h1 _ (.head _)) (not_or.2 h)
                | nil =>
                  rcases h2 with rfl | rfl | ⟨rfl, h2, h3⟩
                  · cases he
                  · cases he; exact ⟨_, ⟨rest, _⟩, rfl, rfl⟩
                  · have he : '\r' :: '\n' :: r = rest := he
                    rw [← he] at h3; simp at h3
            · have := stop (by decide) (by decide) (by decide) (by simpa using hy)
              split
              · rename_i h'; cases h'; exact absurd rfl hy
              · exact this
        · rename_i h2
          exact stop h.1 h.2 h1 (fun h' => h2 (by simp at h'; exact h'.1))

theorem readWhitespace_out {ch : Char} (hch : ch = ' ' ∨ ch = '\t' ∨ ch = '\r') {r : List Char} : out (readWhitespace st ch ⟨r, p⟩) = some (ty, rest) ↔
    ∃ t, ty = .whitespace t ∧ ch :: r = t ++ rest ∧ Blanks t rest := by
  have key := fun acc' => @wsLoop_out p rest r [ch] acc' ⟨st.bytes + ch.utf8Size, st.line, st.character + 1⟩
  unfold readWhitespace
  dsimp only
  generalize wsLoop r p [ch] _ = q at *
  obtain ⟨ws, e, s⟩ := q
  dsimp only [out]
  rw [Option.some.injEq, Prod.mk.injEq]
  constructor
  · rintro ⟨rfl, hs⟩
    obtain ⟨mid, last, rfl, rfl, h1, h2⟩ := (key ws).1 ⟨e, s, rfl, hs⟩
    exact ⟨_, rfl, by simp, .inr ⟨ch, mid, last, rfl, hch, h1, h2⟩⟩
  · rintro ⟨t, rfl, he, rfl | ⟨first, mid, last, rfl, -, h1, h2⟩⟩
    · cases he; simp at hch
    · simp only [List.cons_append, List.cons.injEq] at he
      obtain ⟨rfl, rfl⟩ := he
      obtain ⟨e', s', h3, h4⟩ := (key (ch :: (mid ++ last))).2 ⟨mid, last, rfl, rfl, h1, h2⟩
      cases h3
      exact ⟨rfl, h4⟩

/-! ## Comments -/

theorem lineLoop_out {l : List Char} {acc acc' : Text} : (∃ s, lineLoop l p acc = (acc', s) ∧ s.rest = rest) ↔
    ∃ w, l = w ++ rest ∧ acc' = acc ++ w ∧ '\n' ∉ w ∧ (rest = [] ∨ rest.head? = some '\n') := by
  induction l generalizing p acc with
  | nil =>
    simp only [lineLoop]
    constructor
    · rintro ⟨s, h, rfl⟩; cases h; exact ⟨[], rfl, by simp, by simp, .inl rfl⟩
    · rintro ⟨w, h, rfl, -⟩
      obtain ⟨rfl, rfl⟩ := List.append_eq_nil_iff.1 h.symm
      exact ⟨⟨[], p⟩, by simp, rfl⟩
  | cons x l ih =>
    unfold lineLoop
    split
    · rename_i h
      subst h
      constructor
      · rintro ⟨s, h', rfl⟩; cases h'; exact ⟨[], rfl, by simp, by simp, .inr rfl⟩
      · rintro ⟨w, he, rfl, h1, h2⟩
        cases w with
        | nil => exact ⟨⟨'\n' :: l, p⟩, by simp, he⟩
        | cons y w => cases he; simp at h1
    · rename_i h
      rw [ih]
      constructor
      · rintro ⟨w, rfl, rfl, h1, h2⟩
        exact ⟨x :: w, rfl, by simp, by simpa [Ne.symm h] using h1, h2⟩
      · rintro ⟨w, he, rfl, h1, h2⟩
        cases w with
        | nil =>
          have he : x :: l = rest := he
          rw [← he] at h2
          simp [h] at h2
        | cons y w => cases he; exact ⟨w, rfl, by simp, fun hm => h1 (.tail _ hm), h2⟩

theorem startsLong_iff {t : Text} : StartsLong t ↔ ∃ b, t = '[' :: b ∧ opensLong b = true := by
  constructor
  · rintro ⟨n, r, rfl⟩
    refine ⟨List.replicate n '=' ++ '[' :: r, by simp, opensLong_of⟩
  · rintro ⟨b, rfl, h⟩
    exact startsLong_of_opens h

theorem startsLong_line {t : Text} (h : rest = [] ∨ rest.head? = some '\n') : StartsLong (t ++ rest) ↔ StartsLong t := by
  rw [startsLong_iff, startsLong_iff]
  rcases h with rfl | h
  · rw [List.append_nil]
  · cases rest with
    | nil => cases h
    | cons x r =>
      cases h
      constructor
      · rintro ⟨b, he, hb⟩
        cases t with
        | nil => cases he
        | cons y t => cases he; exact ⟨t, rfl, opensLong_append hb⟩
      · rintro ⟨b, rfl, hb⟩
        refine ⟨_, rfl, ?_⟩
        induction b with
        | nil => cases hb
        | cons x b ih =>
          rw [opensLong] at hb
          split at hb
          · rename_i h; show opensLong (x :: (b ++ _)) = true; rw [opensLong, if_pos h]; exact ih hb
          · rename_i h; show opensLong (x :: (b ++ _)) = true; rw [opensLong, if_neg h]; exact hb

theorem multiLine_out {s : Src} {n : Nat} {body : Text} : (∃ s', readMultiLineBody s = (.ok n body, s') ∧ s'.rest = rest) ↔
    s.rest = List.replicate n '=' ++ ['['] ++ body ++ closeBracket n ++ rest ∧ ClosesFirst (closeBracket n) body := by
  constructor
  · rintro ⟨s', h, rfl⟩
    rcases readMultiLineBody_spec s with ⟨n', b', h1, h2, h3⟩ | ⟨n', b', h1, -⟩ | ⟨n', h1, -⟩
    · rw [h] at h1 h2
      cases h1
      exact ⟨h2.1, h3⟩
    · rw [h] at h1; cases h1
    · rw [h] at h1; cases h1
  · rintro ⟨h1, h2⟩
    have := readMultiLineBody_complete (rest := rest) s.pos h2
    rw [← h1] at this
    exact ⟨_, Prod.ext this.1 rfl, this.2⟩

/-- The text that follows `[` opens a long string or comment that is closed. -/
theorem multiLine_opens {s : Src} {n : Nat} {body : Text} (h : s.rest = List.replicate n '=' ++ ['['] ++ body ++ closeBracket n ++ rest) : opensLong s.rest = true := by
  rw [h]
  have : List.replicate n '=' ++ ['['] ++ body ++ closeBracket n ++ rest = List.replicate n '=' ++ '[' :: (body ++ closeBracket n ++ rest) := by simp
  rw [this]
  exact opensLong_of

/-- What a comment is, behind `--`. -/
def CommentBody (ty : TokenType) (l rest : Text) : Prop :=
  (∃ t, ty = .singleLineComment t ∧ l = t ++ rest ∧ '\n' ∉ t ∧ ¬ StartsLong t ∧ (rest = [] ∨ rest.head? = some '\n')) ∨
  ∃ n body, ty = .multiLineComment n body ∧ l = '[' :: (List.replicate n '=' ++ ['['] ++ body ++ closeBracket n ++ rest) ∧ ClosesFirst (closeBracket n) body

theorem readComment_out {s : Src} : (∃ s', readComment s = (ty, false, s') ∧ s'.rest = rest) ↔ CommentBody ty s.rest rest := by
  have line : ∀ {l : Text} {p : Position} {pre : Text}, '\n' ∉ pre → ¬ StartsLong (pre ++ l) →
      ((∃ s', (let (comment, s) := lineLoop l p pre; (TokenType.singleLineComment comment, false, s)) = (ty, false, s') ∧ s'.rest = rest) ↔ CommentBody ty (pre ++ l) rest) := by
    intro l p pre hp hs
    constructor
    · rintro ⟨s', h, hr⟩
      generalize hq : lineLoop l p pre = q at h
      obtain ⟨cm, s''⟩ := q
      cases h
      obtain ⟨w, rfl, rfl, h1, h2⟩ := lineLoop_out.1 ⟨_, hq, hr⟩
      refine .inl ⟨_, rfl, by simp, by simp [hp, h1], fun h => hs ?_, h2⟩
      rw [← List.append_assoc]
      exact (startsLong_line h2).2 h
    · rintro (⟨t, rfl, he, h1, h2, h3⟩ | ⟨n, body, rfl, he, h1⟩)
      · obtain ⟨w, rfl, rfl⟩ : ∃ w, t = pre ++ w ∧ l = w ++ rest := by
          rcases List.append_eq_append_iff.1 he with ⟨a, h4, h5⟩ | ⟨a, h4, h5⟩
          · exact ⟨a, h4, h5⟩
          · subst h4
            rcases h3 with rfl | h3
            · obtain ⟨rfl, rfl⟩ := List.append_eq_nil_iff.1 h5.symm
              exact ⟨[], by simp, rfl⟩
            · cases a with
              | nil => exact ⟨[], by simp, h5.symm⟩
              | cons x a => rw [h5] at h3; cases h3; simp at hp
        obtain ⟨s, h4, h5⟩ := (lineLoop_out (p := p) (acc := pre) (acc' := pre ++ w)).2 ⟨w, rfl, rfl, fun hm => h1 (by simp [hm]), h3⟩
        rw [h4]
        exact ⟨s, rfl, h5⟩
      · exfalso
        rw [he] at hs
        exact hs (startsLong_iff.2 ⟨_, rfl, multiLine_opens (s := ⟨_, p⟩) rfl⟩)
  obtain ⟨l, p⟩ := s
  unfold readComment
  cases l with
  | nil => exact line (l := []) (pre := []) (by simp) (by rw [startsLong_iff]; rintro ⟨b, h, -⟩; cases h)
  | cons x l =>
    by_cases hx : x = '['
    · subst hx
      simp only [Src.consume, Src.current, List.head?_cons, if_true, Src.advance]
      cases ho : opensLong l with
      | false =>
        have hs : ¬ StartsLong ('[' :: l) := by
          rw [startsLong_iff]
          rintro ⟨b, h, hb⟩; cases h; rw [ho] at hb; cases hb
        rcases readMultiLineBody_spec ⟨l, p.advance '['⟩ with ⟨n', b', -, h2, -⟩ | ⟨n', b', h1, -⟩ | ⟨n', h1, h2⟩
        · have := multiLine_opens h2.1; rw [ho] at this; cases this
        · obtain ⟨n, h3⟩ := readMultiLineBody_not (s := ⟨l, p.advance '['⟩) ho
          rw [h1] at h3; cases h3
        · generalize readMultiLineBody ⟨l, p.advance '['⟩ = q at *
          obtain ⟨q1, s1⟩ := q
          dsimp only at h1
          subst h1
          have e : '[' :: l = ('[' :: List.replicate n' '=') ++ s1.rest := by rw [List.cons_append]; congr 1; exact h2.1
          dsimp only
          rw [e] at hs ⊢
          exact line (by simp [List.mem_replicate]) hs
      | true =>
        have nl : ∀ t : Text, '[' :: l = t ++ rest → ¬ StartsLong t → (rest = [] ∨ rest.head? = some '\n') → False := by
          intro t he hs hr
          rw [← startsLong_line hr, ← he] at hs
          exact hs (startsLong_of_opens ho)
        have key := fun n body => @multiLine_out rest ⟨l, p.advance '['⟩ n body
        have hno : ∀ n, (readMultiLineBody ⟨l, p.advance '['⟩).1 ≠ .notMultiLine n := fun n => readMultiLineBody_opens ho
        generalize readMultiLineBody ⟨l, p.advance '['⟩ = q at *
        obtain ⟨q1, s1⟩ := q
        constructor
        · rintro ⟨s', h, hr⟩
          cases q1 with
          | ok n body =>
            dsimp only at h
            simp only [Prod.mk.injEq, true_and] at h
            obtain ⟨rfl, rfl⟩ := h
            obtain ⟨h3, h4⟩ := (key _ _).1 ⟨_, rfl, hr⟩
            exact .inr ⟨n, body, rfl, by rw [← h3], h4⟩
          | notMultiLine n => exact absurd rfl (hno n)
          | unclosed n body => dsimp only at h; simp at h
        · rintro (⟨t, rfl, he, h1, h2, h3⟩ | ⟨n, body, rfl, he, h1⟩)
          · exact absurd h3 (fun h3 => nl t he h2 h3)
          · simp only [List.cons.injEq, true_and] at he
            obtain ⟨s', h, hr⟩ := (key _ _).2 ⟨he, h1⟩
            cases h
            exact ⟨_, rfl, hr⟩
    · simp only [Src.consume, Src.current, List.head?_cons, Option.some.injEq, hx, if_false]
      exact line (pre := []) (by simp) (by rw [startsLong_iff]; rintro ⟨b, h, -⟩; cases h; exact hx rfl)

theorem commentToken_out {q : TokenType × Bool × Src} : out (commentToken st q) = some (ty, rest) ↔ q.1 = ty ∧ q.2.1 = false ∧ q.2.2.rest = rest := by
  obtain ⟨q1, b, s⟩ := q
  cases b <;> simp [commentToken, createRecovered, LexRes.new, out]

theorem cStyle_out {l : List Char} {t : Text} : (∃ s, cStyleLoop l p [] = (t, false, s) ∧ s.rest = rest) ↔ l = t ++ ['*', '/'] ++ rest ∧ ClosesFirst ['*', '/'] t := by
  constructor
  · rintro ⟨s, h, rfl⟩
    obtain ⟨w, h1, h2, -⟩ := cStyleLoop_spec l p []
    rw [h] at h1 h2
    obtain ⟨h3, h4⟩ := h2 rfl
    have h1 : t = w := h1
    subst h1
    exact ⟨h3.1, h4⟩
  · rintro ⟨rfl, h⟩
    obtain ⟨h1, h2⟩ := cStyleLoop_complete (r := rest) h p []
    obtain ⟨w, h3, h4, -⟩ := cStyleLoop_spec (t ++ ['*', '/'] ++ rest) p []
    obtain ⟨h5, h6⟩ := h4 h1
    have h7 := h5.1
    rw [h2] at h7
    have h7 : t ++ ['*', '/'] ++ rest = w ++ ['*', '/'] ++ rest := h7
    have h8 := List.append_cancel_right (List.append_cancel_right h7)
    refine ⟨_, Prod.ext ?_ (Prod.ext h1 rfl), h2⟩
    rw [h3, h8]; rfl

/-! ## Long strings -/

theorem readLeftBracket_out {r : List Char} : out (readLeftBracket st ⟨r, p⟩) = some (ty, rest) ↔
    (∃ n body, ty = .stringLiteral body n .brackets ∧ r = List.replicate n '=' ++ ['['] ++ body ++ closeBracket n ++ rest ∧ ClosesFirst (closeBracket n) body) ∨
    (ty = .symbol .leftBracket ∧ r = rest ∧ ¬ StartsLong ('[' :: rest)) := by
  cases ho : opensLong r with
  | false =>
    rw [readLeftBracket_sym ho]
    simp only [symTok, out_create, Option.some.injEq, Prod.mk.injEq]
    constructor
    · rintro ⟨rfl, rfl⟩
      refine .inr ⟨rfl, rfl, ?_⟩
      rw [startsLong_iff]
      rintro ⟨b, h, hb⟩; cases h; rw [ho] at hb; cases hb
    · rintro (⟨n, body, -, he, -⟩ | ⟨rfl, rfl, -⟩)
      · have := multiLine_opens (s := ⟨r, p⟩) he; rw [ho] at this; cases this
      · exact ⟨rfl, rfl⟩
  | true =>
    have hh : r.head? = some '[' ∨ r.head? = some '=' := by
      cases r with
      | nil => cases ho
      | cons x r =>
        rw [opensLong] at ho
        split at ho
        · rename_i h; simp [h]
        · left; simpa using ho
    unfold readLeftBracket
    rw [if_pos (by exact hh)]
    have key := fun n body => @multiLine_out rest ⟨r, p⟩ n body
    have hno : ∀ n, (readMultiLineBody ⟨r, p⟩).1 ≠ .notMultiLine n := fun n => readMultiLineBody_opens ho
    generalize readMultiLineBody ⟨r, p⟩ = q at *
    obtain ⟨q1, s1⟩ := q
    constructor
    · intro h
      cases q1 with
      | ok n body =>
        dsimp only at h
        simp only [out_create, Option.some.injEq, Prod.mk.injEq] at h
        obtain ⟨rfl, hr⟩ := h
        obtain ⟨h3, h4⟩ := (key _ _).1 ⟨_, rfl, hr⟩
        exact .inl ⟨n, body, rfl, h3, h4⟩
      | notMultiLine n => exact absurd rfl (hno n)
      | unclosed n body => simp [createRecovered, LexRes.new, out] at h
    · rintro (⟨n, body, rfl, he, h1⟩ | ⟨rfl, rfl, hs⟩)
      · obtain ⟨s', h, hr⟩ := (key _ _).2 ⟨he, h1⟩
        cases h
        simp [hr]
      · exact absurd (startsLong_of_opens ho) hs

end FM
