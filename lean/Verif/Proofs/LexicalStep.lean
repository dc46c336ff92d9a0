import Verif.Proofs.LexicalSymbol

/-! Helper lemmas for C51: one token. -/

namespace FM
open Spec

variable {c : Cfg} {st p : Position} {ty ty' : TokenType} {rest rest' : Text}

def WordOk (c : Cfg) (l : Text) (ty : TokenType) (rest : Text) : Prop :=
  l = ty.display ++ rest ∧ startsWith isWordChar rest = false ∧ ((∃ t, ty = .identifier t ∧ IsWord t ∧ ¬ Reserved c t) ∨ ∃ y, ty = .symbol y ∧ IsWord y.text ∧ Enabled c y)

def NumOk (c : Cfg) (l : Text) (ty : TokenType) (rest : Text) : Prop := ∃ t, ty = .number t ∧ l = t ++ rest ∧ AnyNumber c t rest

def BlankOk (l : Text) (ty : TokenType) (rest : Text) : Prop := ∃ t, ty = .whitespace t ∧ l = t ++ rest ∧ Blanks t rest

def ComOk (ch : Char) (r : Text) (ty : TokenType) (rest : Text) : Prop := ch = '-' ∧ ∃ r', r = '-' :: r' ∧ CommentBody ty r' rest

def CStyleOk (c : Cfg) (ch : Char) (r : Text) (ty : TokenType) (rest : Text) : Prop :=
  ch = '/' ∧ ∃ t, ty = .cStyleComment t ∧ c.has .cfxlua = true ∧ r = '*' :: (t ++ ['*', '/'] ++ rest) ∧ ClosesFirst ['*', '/'] t

def LongOk (ch : Char) (r : Text) (ty : TokenType) (rest : Text) : Prop :=
  ch = '[' ∧ ∃ n body, ty = .stringLiteral body n .brackets ∧ r = List.replicate n '=' ++ ['['] ++ body ++ closeBracket n ++ rest ∧ ClosesFirst (closeBracket n) body

def PlainOk (c : Cfg) (ch : Char) (r : Text) (ty : TokenType) (rest : Text) : Prop :=
  WordOk c (ch :: r) ty rest ∨ SymOk c (ch :: r) ty rest ∨ NumOk c (ch :: r) ty rest ∨ BlankOk (ch :: r) ty rest ∨ ComOk ch r ty rest ∨ CStyleOk c ch r ty rest ∨ LongOk ch r ty rest

variable {ch : Char} {r : List Char}

theorem word_no (h : isIdentStart ch = false) : ¬ WordOk c (ch :: r) ty rest := by
  have key : ∀ {t : Text}, IsWord t → ch :: r = t ++ rest → False := by
    intro t hw he
    have h1 := isWord_start hw
    cases t with
    | nil => exact hw
    | cons x t => cases he; rw [show isIdentStart ch = true from h1] at h; cases h
  rintro ⟨he, -, ⟨t, rfl, hw, -⟩ | ⟨y, rfl, hw, -⟩⟩
  · exact key hw he
  · exact key hw he

def symChars : List Char := "=~()[]:,+*/%^#<>.-;{}&|?@".toList

theorem sym_no (h : ch ∉ symChars) : ¬ SymOk c (ch :: r) ty rest := by
  rintro ⟨y, rfl, hw, he, -⟩
  rcases sym_word (y := y) with h1 | ⟨-, h1, h2⟩
  · exact hw h1
  · have ht := List.all_eq_true.1 others_table y y.mem_all
    cases hyt : y.text with
    | nil => exact h2 hyt
    | cons x t =>
      rw [hyt] at he ht h1
      cases he
      have ht : (isWordChar ch || symChars.contains ch) = true := ht
      rw [show isWordChar ch = false from h1, Bool.false_or, List.contains_iff_mem] at ht
      exact h ht

theorem num_no (h : isDigit ch = false) (h' : ch ≠ '.') : ¬ NumOk c (ch :: r) ty rest := by
  rintro ⟨t, rfl, he, hn⟩
  obtain ⟨first, t', rfl, h1⟩ := anyNumber_first hn
  cases he
  rcases h1 with h1 | ⟨h1, -⟩
  · have : isDigit ch = true := by simpa [isDigit] using h1
    rw [h] at this; cases this
  · exact h' h1

theorem blank_no (h : ch ≠ ' ' ∧ ch ≠ '\t' ∧ ch ≠ '\r' ∧ ch ≠ '\n') : ¬ BlankOk (ch :: r) ty rest := by
  rintro ⟨t, rfl, he, rfl | ⟨first, mid, last, rfl, h1, -⟩⟩
  · cases he; exact h.2.2.2 rfl
  · cases he
    rcases h1 with h1 | h1 | h1
    · exact h.1 h1
    · exact h.2.1 h1
    · exact h.2.2.1 h1

theorem com_no (h : ch ≠ '-') : ¬ ComOk ch r ty rest := fun h' => h h'.1
theorem cstyle_no (h : ch ≠ '/') : ¬ CStyleOk c ch r ty rest := fun h' => h h'.1
theorem long_no (h : ch ≠ '[') : ¬ LongOk ch r ty rest := fun h' => h h'.1

/-- A concrete character that is neither of a word nor a digit nor blank, dot, minus, slash, bracket. -/
def onlySym (ch : Char) : Bool := !isIdentStart ch && !isDigit ch && !([' ', '\t', '\r', '\n', '.', '-', '/', '[']).contains ch

theorem plain_sym (h : onlySym ch = true) : PlainOk c ch r ty rest ↔ SymOk c (ch :: r) ty rest := by
  simp only [onlySym, Bool.and_eq_true, Bool.not_eq_true', List.contains_eq_mem, List.mem_cons, List.not_mem_nil, or_false, decide_eq_false_iff_not, not_or] at h
  obtain ⟨⟨h1, h2⟩, a1, a2, a3, a4, a5, a6, a7, a8⟩ := h
  simp only [PlainOk, word_no h1, num_no h2 a5, blank_no ⟨a1, a2, a3, a4⟩, com_no a6, cstyle_no a7, long_no a8, false_or, or_false]

theorem readPlain_out (hc : c.Good) (hch : ch ≠ '{' ∧ ch ≠ '}') : out (readPlain c st ch ⟨r, p⟩) = some (ty, rest) ↔ PlainOk c ch r ty rest := by
  unfold readPlain
  by_cases h : isIdentStart ch = true
  · rw [if_pos h, readIdent_out h]
    have hd : isDigit ch = false ∧ ch ∉ symChars ∧ ch ≠ '.' ∧ (ch ≠ ' ' ∧ ch ≠ '\t' ∧ ch ≠ '\r' ∧ ch ≠ '\n') ∧ ch ≠ '-' ∧ ch ≠ '/' ∧ ch ≠ '[' := by
      have hs : isDigit ch = false := by
        cases hd : isDigit ch with
        | false => rfl
        | true =>
          have h2 := (isIdentStart_iff.1 h).2
          exact absurd (show isDigit ch = true from hd) (by simpa [isDigit] using h2)
      refine ⟨hs, ?_, ?_, ⟨?_, ?_, ?_, ?_⟩, ?_, ?_, ?_⟩
      · intro hm
        have := List.all_eq_true.1 (by decide : symChars.all (fun ch => !isIdentStart ch) = true) ch hm
        rw [h] at this; cases this
      all_goals (rintro rfl; exact absurd h (by decide))
    obtain ⟨d1, d2, d3, d4, d5, d6, d7⟩ := hd
    simp only [PlainOk, sym_no d2, num_no d1 d3, blank_no d4, com_no d5, cstyle_no d6, long_no d7, false_or, or_false]
    rfl
  rw [if_neg h]
  have h0 : isIdentStart ch = false := by simpa using h
  by_cases h : ch = ' ' ∨ ch = '\t' ∨ ch = '\r'
  · rw [if_pos h, readWhitespace_out h]
    have hd : isDigit ch = false ∧ ch ∉ symChars ∧ ch ≠ '.' ∧ ch ≠ '-' ∧ ch ≠ '/' ∧ ch ≠ '[' := by
      rcases h with rfl | rfl | rfl <;> decide
    obtain ⟨d1, d2, d3, d5, d6, d7⟩ := hd
    simp only [PlainOk, word_no h0, sym_no d2, num_no d1 d3, com_no d5, cstyle_no d6, long_no d7, false_or, or_false]
    rfl
  rw [if_neg h]
  have hb := h
  by_cases h : isDigit ch = true
  · have hd : ch ∉ symChars ∧ ch ≠ '.' ∧ (ch ≠ ' ' ∧ ch ≠ '\t' ∧ ch ≠ '\r' ∧ ch ≠ '\n') ∧ ch ≠ '-' ∧ ch ≠ '/' ∧ ch ≠ '[' := by
      refine ⟨?_, ?_, ⟨?_, ?_, ?_, ?_⟩, ?_, ?_, ?_⟩
      · intro hm
        have := List.all_eq_true.1 (by decide : symChars.all (fun ch => !isDigit ch) = true) ch hm
        rw [h] at this; cases this
      all_goals (rintro rfl; exact absurd h (by decide))
    obtain ⟨d2, d3, d4, d5, d6, d7⟩ := hd
    simp only [PlainOk, word_no h0, sym_no d2, blank_no d4, com_no d5, cstyle_no d6, long_no d7, false_or, or_false]
    by_cases hz : ch = '0'
    · subst hz
      rw [if_pos rfl]
      exact readZero_out
    · rw [if_neg hz, if_pos h]
      exact readNumber_out (Or.inl (by simpa [isDigit] using h)) hz
  have hdg : isDigit ch = false := by simpa using h
  have hz : ch ≠ '0' := by rintro rfl; exact h (by decide)
  rw [if_neg hz, if_neg h]
  by_cases h : ch = '='
  · subst h; rw [if_pos rfl, plain_sym (by decide)]; exact readEqual_out
  have n1 := h
  rw [if_neg h]
  by_cases h : ch = '~'
  · subst h; rw [if_pos rfl, plain_sym (by decide)]; exact readTilde_out
  have n2 := h
  rw [if_neg h]
  by_cases h : ch = '\n'
  · subst h
    rw [if_pos rfl]
    simp only [PlainOk, word_no h0, sym_no (ch := '\n') (by decide), num_no hdg (by decide), com_no (ch := '\n') (by decide), cstyle_no (ch := '\n') (by decide), long_no (ch := '\n') (by decide), false_or, or_false]
    constructor
    · intro h
      cases h
      exact ⟨_, rfl, rfl, Or.inl rfl⟩
    · rintro ⟨t, rfl, he, rfl | ⟨first, mid, last, rfl, h1, -⟩⟩
      · cases he; rfl
      · cases he; exact absurd h1 (by decide)
  have n3 := h
  rw [if_neg h]
  by_cases h : ch = '('
  · subst h; rw [if_pos rfl, plain_sym (by decide)]; exact single_out .leftParen rfl rfl rfl rfl trivial
  have n4 := h
  rw [if_neg h]
  by_cases h : ch = ')'
  · subst h; rw [if_pos rfl, plain_sym (by decide)]; exact single_out .rightParen rfl rfl rfl rfl trivial
  have n5 := h
  rw [if_neg h]
  by_cases h : ch = '['
  · subst h
    rw [if_pos rfl, readLeftBracket_out]
    simp only [PlainOk, word_no h0, num_no hdg (by decide), blank_no (ch := '[') (by decide), com_no (ch := '[') (by decide), cstyle_no (ch := '[') (by decide), false_or, LongOk, true_and]
    rw [or_comm]
    refine or_congr_left ?_
    have hf : Symbol.all.filter (fun y => y.text.head? == some '[') = [.leftBracket] := by decide +kernel
    constructor
    · rintro ⟨rfl, rfl, hs⟩
      exact symOk_mk .leftBracket rfl rfl rfl (by simp [extsTable]) hs
    · rintro ⟨y, rfl, hw, he, hen, -, hn⟩
      have hy : y ∈ Symbol.all.filter (fun y => y.text.head? == some '[') := by
        refine List.mem_filter.2 ⟨y.mem_all, ?_⟩
        rcases sym_word (y := y) with h1 | ⟨-, -, h2⟩
        · exact absurd h1 hw
        · cases ht : y.text with
          | nil => exact absurd ht h2
          | cons x t => rw [ht] at he; cases he; rfl
      rw [hf, List.mem_singleton] at hy
      subst hy
      cases he
      exact ⟨rfl, rfl, hn⟩
  have n6 := h
  rw [if_neg h]
  by_cases h : ch = ']'
  · subst h; rw [if_pos rfl, plain_sym (by decide)]; exact single_out .rightBracket rfl rfl rfl rfl trivial
  have n7 := h
  rw [if_neg h]
  by_cases h : ch = ':'
  · subst h; rw [if_pos rfl, plain_sym (by decide)]
    refine readGated_out ?_ rfl rfl rfl (by decide) rfl rfl (fun _ => trivial) (fun _ => trivial)
    simp only [Symbol.gates, Cfg.hasAny_three]
    cases c.has .lua52 <;> cases c.has .luau <;> cases c.has .luajit <;> rfl
  have n8 := h
  rw [if_neg h]
  by_cases h : ch = ','
  · subst h; rw [if_pos rfl, plain_sym (by decide)]; exact single_out .comma rfl rfl rfl rfl trivial
  have n9 := h
  rw [if_neg h]
  by_cases h : ch = '+'
  · subst h; rw [if_pos rfl, plain_sym (by decide)]
    exact readGated_out rfl rfl rfl rfl (by decide) rfl rfl (fun _ => trivial) (fun _ => trivial)
  have n10 := h
  rw [if_neg h]
  by_cases h : ch = '*'
  · subst h; rw [if_pos rfl, plain_sym (by decide)]
    exact readGated_out rfl rfl rfl rfl (by decide) rfl rfl (fun _ => trivial) (fun _ => trivial)
  have n11 := h
  rw [if_neg h]
  by_cases h : ch = '/'
  · subst h
    rw [if_pos rfl, readSlash_out hc]
    simp only [PlainOk, word_no h0, num_no hdg (by decide), blank_no (ch := '/') (by decide), com_no (ch := '/') (by decide), long_no (ch := '/') (by decide), false_or, or_false, CStyleOk, true_and]
  have n12 := h
  rw [if_neg h]
  by_cases h : ch = '%'
  · subst h; rw [if_pos rfl, plain_sym (by decide)]
    exact readGated_out rfl rfl rfl rfl (by decide) rfl rfl (fun _ => trivial) (fun _ => trivial)
  have n13 := h
  rw [if_neg h]
  by_cases h : ch = '^'
  · subst h; rw [if_pos rfl, plain_sym (by decide)]
    exact readGated_out rfl rfl rfl rfl (by decide) rfl rfl (fun _ => trivial) (fun _ => trivial)
  have n14 := h
  rw [if_neg h]
  by_cases h : ch = '#'
  · subst h; rw [if_pos rfl, plain_sym (by decide)]; exact single_out .hash rfl rfl rfl rfl trivial
  have n15 := h
  rw [if_neg h]
  by_cases h : ch = '<'
  · subst h; rw [if_pos rfl, plain_sym (by decide)]
    refine readAngle_out hc (by decide) ⟨rfl, rfl, rfl⟩ ⟨rfl, rfl, rfl⟩ ⟨rfl, rfl, rfl⟩ ⟨rfl, rfl, rfl⟩ ?_
    intro y hy r
    simp only [List.mem_cons, List.not_mem_nil, or_false] at hy
    rcases hy with rfl | rfl | rfl | rfl <;> trivial
  have n16 := h
  rw [if_neg h]
  by_cases h : ch = '>'
  · subst h; rw [if_pos rfl, plain_sym (by decide)]
    refine readAngle_out hc (by decide) ⟨rfl, rfl, rfl⟩ ⟨rfl, rfl, rfl⟩ ⟨rfl, rfl, rfl⟩ ⟨rfl, rfl, rfl⟩ ?_
    intro y hy r
    simp only [List.mem_cons, List.not_mem_nil, or_false] at hy
    rcases hy with rfl | rfl | rfl | rfl <;> trivial
  have n17 := h
  rw [if_neg h]
  by_cases h : ch = '.'
  · subst h
    rw [if_pos rfl, readDot_out]
    simp only [PlainOk, word_no h0, blank_no (ch := '.') (by decide), com_no (ch := '.') (by decide), cstyle_no (ch := '.') (by decide), long_no (ch := '.') (by decide), false_or, or_false, NumOk]
  have n18 := h
  rw [if_neg h]
  by_cases h : ch = '-'
  · subst h
    rw [if_pos rfl, readMinus_out]
    simp only [PlainOk, word_no h0, num_no hdg (by decide), blank_no (ch := '-') (by decide), cstyle_no (ch := '-') (by decide), long_no (ch := '-') (by decide), false_or, or_false, ComOk, true_and]
  have n19 := h
  rw [if_neg h]
  by_cases h : ch = ';'
  · subst h; rw [if_pos rfl, plain_sym (by decide)]; exact single_out .semicolon rfl rfl rfl rfl trivial
  have n20 := h
  rw [if_neg h]
  simp only [not_or] at hb
  rw [plain_sym]
  · refine readOther_out ⟨?_, ?_⟩
    · cases hw : isWordChar ch with
      | false => rfl
      | true =>
        have := (isIdentStart_iff (ch := ch)).2 ⟨hw, by simpa [isDigit] using hdg⟩
        rw [h0] at this; cases this
    · rw [show "=~()[]:,+*/%^#<>.-;{}".toList = ['=', '~', '(', ')', '[', ']', ':', ',', '+', '*', '/', '%', '^', '#', '<', '>', '.', '-', ';', '{', '}'] from by decide]
      simp only [List.mem_cons, List.not_mem_nil, or_false, not_or]
      exact ⟨n1, n2, n4, n5, n6, n7, n8, n9, n10, n11, n12, n13, n14, n15, n16, n17, n18, n19, n20, hch.1, hch.2⟩
  · simp only [onlySym, Bool.and_eq_true, Bool.not_eq_true', List.contains_eq_mem, List.mem_cons, List.not_mem_nil, or_false, decide_eq_false_iff_not, not_or]
    exact ⟨⟨h0, hdg⟩, hb.1, hb.2.1, hb.2.2, n3, n18, n19, n12, n6⟩


/-- The lexemes that start with neither a quote nor a brace. -/
theorem lex_plain {bs bs' : List BraceType} (hch : ch ≠ '{' ∧ ch ≠ '}' ∧ ch ≠ '"' ∧ ch ≠ '\'' ∧ ch ≠ '`') :
    (ch :: r = ty.display ++ rest ∧ Lexeme c bs ty rest bs') ↔ PlainOk c ch r ty rest ∧ bs' = bs := by
  constructor
  · rintro ⟨he, hl⟩
    cases ty with
    | eof => exact hl.elim
    | shebang t => exact hl.elim
    | identifier t =>
      obtain ⟨h1, h2, h3, h4⟩ := hl
      exact ⟨Or.inl ⟨he, h3, Or.inl ⟨t, rfl, h1, h2⟩⟩, h4⟩
    | symbol y =>
      obtain ⟨h1, h2, h3, h4, h5⟩ := hl
      have hb : bs' = bs := by
        cases y <;> try exact h5
        · cases he; exact absurd rfl hch.1
        · cases he; exact absurd rfl hch.2.1
      rcases sym_word (y := y) with hw | ⟨hw, -⟩
      · exact ⟨Or.inl ⟨he, h2 hw, Or.inr ⟨y, rfl, hw, h1⟩⟩, hb⟩
      · exact ⟨Or.inr (Or.inl ⟨y, rfl, hw, he, h1, h3 hw, h4⟩), hb⟩
    | number t => exact ⟨Or.inr (Or.inr (Or.inl ⟨t, rfl, he, hl.1⟩)), hl.2⟩
    | whitespace t => exact ⟨Or.inr (Or.inr (Or.inr (Or.inl ⟨t, rfl, he, hl.1⟩))), hl.2⟩
    | singleLineComment t =>
      obtain ⟨h1, h2, h3, h4⟩ := hl
      cases he
      exact ⟨Or.inr (Or.inr (Or.inr (Or.inr (Or.inl ⟨rfl, _, rfl, Or.inl ⟨t, rfl, rfl, h1, h2, h3⟩⟩)))), h4⟩
    | multiLineComment n body =>
      have he : ch :: r = '-' :: '-' :: ('[' :: (List.replicate n '=' ++ ['['] ++ body ++ closeBracket n ++ rest)) := by
        rw [he]; simp [TokenType.display, closeBracket]
      cases he
      exact ⟨Or.inr (Or.inr (Or.inr (Or.inr (Or.inl ⟨rfl, _, rfl, Or.inr ⟨n, body, rfl, rfl, hl.1⟩⟩)))), hl.2⟩
    | cStyleComment t =>
      have he : ch :: r = '/' :: '*' :: (t ++ ['*', '/'] ++ rest) := by rw [he]; simp [TokenType.display]
      cases he
      exact ⟨Or.inr (Or.inr (Or.inr (Or.inr (Or.inr (Or.inl ⟨rfl, t, rfl, hl.1, rfl, hl.2.1⟩))))), hl.2.2⟩
    | stringLiteral body n q =>
      cases q with
      | brackets =>
        have he : ch :: r = '[' :: (List.replicate n '=' ++ ['['] ++ body ++ closeBracket n ++ rest) := by rw [he]; simp [TokenType.display, closeBracket]
        cases he
        exact ⟨Or.inr (Or.inr (Or.inr (Or.inr (Or.inr (Or.inr ⟨rfl, n, body, rfl, rfl, hl.1⟩))))), hl.2⟩
      | double => cases he; exact absurd rfl hch.2.2.1
      | single => cases he; exact absurd rfl hch.2.2.2.1
      | backtick => cases he; exact absurd rfl hch.2.2.2.2
    | interpolated body k =>
      cases k
      · cases he; exact absurd rfl hch.2.2.2.2
      · cases he; exact absurd rfl hch.2.1
      · cases he; exact absurd rfl hch.2.1
      · cases he; exact absurd rfl hch.2.2.2.2
  · rintro ⟨h, rfl⟩
    rcases h with ⟨he, h1, ⟨t, rfl, h2, h3⟩ | ⟨y, rfl, h2, h3⟩⟩ | ⟨y, rfl, hw, he, h1, h2, h3⟩ | ⟨t, rfl, he, h1⟩ | ⟨t, rfl, he, h1⟩ | ⟨rfl, r', rfl, h⟩ | ⟨rfl, t, rfl, h1, rfl, h2⟩ | ⟨rfl, n, body, rfl, rfl, h1⟩
    · exact ⟨he, h2, h3, h1, rfl⟩
    · refine ⟨he, h3, fun _ => h1, fun h => absurd h2 h, ?_, ?_⟩
      · cases y <;> first | trivial | exact absurd h2 (by simp [IsWord, Symbol.text, isWordChar])
      · cases y <;> first | rfl | exact absurd h2 (by simp [IsWord, Symbol.text, isWordChar])
    · refine ⟨he, h1, fun h => absurd h hw, fun _ => h2, h3, ?_⟩
      cases y <;> try rfl
      · cases he; exact absurd rfl hch.1
      · cases he; exact absurd rfl hch.2.1
    · exact ⟨he, h1, rfl⟩
    · exact ⟨he, h1, rfl⟩
    · rcases h with ⟨t, rfl, rfl, h1, h2, h3⟩ | ⟨n, body, rfl, rfl, h1⟩
      · exact ⟨by simp [TokenType.display], h1, h2, h3, rfl⟩
      · exact ⟨by simp [TokenType.display, closeBracket], h1, rfl⟩
    · exact ⟨by simp [TokenType.display], h1, h2, rfl⟩
    · exact ⟨by simp [TokenType.display, closeBracket], h1, rfl⟩

/-- What a step of the lexer found: type of the token, what is left, the open braces. -/
def stepOut : Outcome StepRes → Option (TokenType × Text × List BraceType)
  | .ok (some (.ok t), l) => some (t.type, l.src.rest, l.braces)
  | _ => none

theorem stepOut_finish {l : Lx} {q : ReadRes} {bs' : List BraceType} : stepOut (.ok (l.finish q)) = some (ty, rest, bs') ↔ out q = some (ty, rest) ∧ bs' = l.braces := by
  obtain ⟨q, s⟩ := q
  cases q <;> simp [stepOut, Lx.finish, out, and_assoc, eq_comm]

theorem lex_special {bs bs' : List BraceType} (hch : ch = '{' ∨ ch = '}' ∨ ch = '"' ∨ ch = '\'' ∨ ch = '`') (h : ch :: r = ty.display ++ rest ∧ Lexeme c bs ty rest bs') :
    (∃ y, ty = .symbol y ∧ SymOk c (ch :: r) ty rest ∧ BracesOf c y bs bs') ∨ (∃ body n q, ty = .stringLiteral body n q ∧ q ≠ .brackets) ∨ ∃ body k, ty = .interpolated body k := by
  obtain ⟨he, hl⟩ := h
  have h0 : isIdentStart ch = false ∧ isDigit ch = false ∧ (ch ≠ ' ' ∧ ch ≠ '\t' ∧ ch ≠ '\r' ∧ ch ≠ '\n') ∧ ch ≠ '.' ∧ ch ≠ '-' ∧ ch ≠ '/' ∧ ch ≠ '[' := by
    rcases hch with rfl | rfl | rfl | rfl | rfl <;> decide
  cases ty with
  | eof => exact hl.elim
  | shebang t => exact hl.elim
  | identifier t => exact absurd (show WordOk c (ch :: r) (.identifier t) rest from ⟨he, hl.2.2.1, Or.inl ⟨t, rfl, hl.1, hl.2.1⟩⟩) (word_no h0.1)
  | symbol y =>
    obtain ⟨h1, h2, h3, h4, h5⟩ := hl
    rcases sym_word (y := y) with hw | ⟨hw, -⟩
    · exact absurd (show WordOk c (ch :: r) (.symbol y) rest from ⟨he, h2 hw, Or.inr ⟨y, rfl, hw, h1⟩⟩) (word_no h0.1)
    · exact Or.inl ⟨y, rfl, ⟨y, rfl, hw, he, h1, h3 hw, h4⟩, h5⟩
  | number t => exact absurd (show NumOk c (ch :: r) (.number t) rest from ⟨t, rfl, he, hl.1⟩) (num_no h0.2.1 h0.2.2.2.1)
  | whitespace t => exact absurd (show BlankOk (ch :: r) (.whitespace t) rest from ⟨t, rfl, he, hl.1⟩) (blank_no h0.2.2.1)
  | singleLineComment t => cases he; exact absurd rfl h0.2.2.2.2.1
  | multiLineComment n body => exact absurd (List.cons.inj he).1 h0.2.2.2.2.1
  | cStyleComment t => exact absurd (List.cons.inj he).1 h0.2.2.2.2.2.1
  | stringLiteral body n q =>
    cases q with
    | brackets => exact absurd (List.cons.inj he).1 h0.2.2.2.2.2.2
    | _ => exact Or.inr (Or.inl ⟨_, _, _, rfl, nofun⟩)
  | interpolated body k => exact Or.inr (Or.inr ⟨_, _, rfl⟩)

theorem sym_start {y : Symbol} (h : SymOk c (ch :: r) (.symbol y) rest) {l : List Symbol} (hf : Symbol.all.filter (fun y => y.text.head? == some ch) = l) : y ∈ l ∧ ch :: r = y.text ++ rest := by
  obtain ⟨y', e, hw, he, -⟩ := h
  cases e
  refine ⟨?_, he⟩
  rw [← hf]
  refine List.mem_filter.2 ⟨y.mem_all, ?_⟩
  rcases sym_word (y := y) with h1 | ⟨-, -, h2⟩
  · exact absurd h1 hw
  · cases ht : y.text with
    | nil => exact absurd ht h2
    | cons x t => rw [ht] at he; cases he; simp

theorem lex_double {bs bs' : List BraceType} : ('"' :: r = ty.display ++ rest ∧ Lexeme c bs ty rest bs') ↔
    (∃ body, ty = .stringLiteral body 0 .double ∧ r = body ++ '"' :: rest ∧ StringBody c '"' false body) ∧ bs' = bs := by
  constructor
  · intro h
    rcases lex_special (by simp) h with ⟨y, -, h1, -⟩ | ⟨body, n, q, rfl, hq⟩ | ⟨body, k, rfl⟩
    · exact absurd h1 (sym_no (by decide))
    · cases q with
      | double =>
        obtain ⟨he, rfl, h1, h2⟩ := h
        refine ⟨⟨body, rfl, ?_, h1⟩, h2⟩
        have := (List.cons.inj he).2
        rw [this]; simp [Quote.char]
      | brackets => exact absurd rfl hq
      | single => exact absurd (List.cons.inj h.1).1 (by decide)
      | backtick => exact absurd (List.cons.inj h.1).1 (by decide)
    · cases k <;> exact absurd (List.cons.inj h.1).1 (by decide)
  · rintro ⟨⟨body, rfl, rfl, h⟩, rfl⟩
    exact ⟨by simp [TokenType.display, Quote.char], rfl, h, rfl⟩

theorem lex_single {bs bs' : List BraceType} : ('\'' :: r = ty.display ++ rest ∧ Lexeme c bs ty rest bs') ↔
    (∃ body, ty = .stringLiteral body 0 .single ∧ r = body ++ '\'' :: rest ∧ StringBody c '\'' false body) ∧ bs' = bs := by
  constructor
  · intro h
    rcases lex_special (by simp) h with ⟨y, -, h1, -⟩ | ⟨body, n, q, rfl, hq⟩ | ⟨body, k, rfl⟩
    · exact absurd h1 (sym_no (by decide))
    · cases q with
      | single =>
        obtain ⟨he, rfl, h1, h2⟩ := h
        refine ⟨⟨body, rfl, ?_, h1⟩, h2⟩
        have := (List.cons.inj he).2
        rw [this]; simp [Quote.char]
      | brackets => exact absurd rfl hq
      | double => exact absurd (List.cons.inj h.1).1 (by decide)
      | backtick => exact absurd (List.cons.inj h.1).1 (by decide)
    · cases k <;> exact absurd (List.cons.inj h.1).1 (by decide)
  · rintro ⟨⟨body, rfl, rfl, h⟩, rfl⟩
    exact ⟨by simp [TokenType.display, Quote.char], rfl, h, rfl⟩

theorem lex_backtick_string {bs bs' : List BraceType} (hl : c.has .luau = false) : ('`' :: r = ty.display ++ rest ∧ Lexeme c bs ty rest bs') ↔
    (∃ body, ty = .stringLiteral body 0 .backtick ∧ r = body ++ '`' :: rest ∧ StringBody c '`' false body ∧ c.feat.cfxlua = true) ∧ bs' = bs := by
  constructor
  · intro h
    rcases lex_special (by simp) h with ⟨y, -, h1, -⟩ | ⟨body, n, q, rfl, hq⟩ | ⟨body, k, rfl⟩
    · exact absurd h1 (sym_no (by decide))
    · cases q with
      | backtick =>
        obtain ⟨he, rfl, h0, -, h1, h2⟩ := h
        refine ⟨⟨body, rfl, ?_, h1, h0⟩, h2⟩
        have := (List.cons.inj he).2
        rw [this]; simp [Quote.char]
      | brackets => exact absurd rfl hq
      | double => exact absurd (List.cons.inj h.1).1 (by decide)
      | single => exact absurd (List.cons.inj h.1).1 (by decide)
    · rw [h.2.1] at hl; cases hl
  · rintro ⟨⟨body, rfl, rfl, h, h0⟩, rfl⟩
    exact ⟨by simp [TokenType.display, Quote.char], rfl, h0, hl, h, rfl⟩

theorem lex_backtick {bs bs' : List BraceType} (hl : c.has .luau = true) : ('`' :: r = ty.display ++ rest ∧ Lexeme c bs ty rest bs') ↔
    (∃ body, ty = .interpolated body .begin ∧ r = body ++ '{' :: rest ∧ SectionBody ('{' :: rest) false false body ∧ bs' = .interpolatedString :: bs) ∨
    (∃ body, ty = .interpolated body .simple ∧ r = body ++ '`' :: rest ∧ SectionBody ('`' :: rest) false false body ∧ bs' = bs) := by
  constructor
  · intro h
    rcases lex_special (by simp) h with ⟨y, -, h1, -⟩ | ⟨body, n, q, rfl, hq⟩ | ⟨body, k, rfl⟩
    · exact absurd h1 (sym_no (by decide))
    · cases q with
      | backtick =>
        obtain ⟨-, -, -, h1, -⟩ := h
        rw [hl] at h1; cases h1
      | brackets => exact absurd rfl hq
      | double => exact absurd (List.cons.inj h.1).1 (by decide)
      | single => exact absurd (List.cons.inj h.1).1 (by decide)
    · obtain ⟨he, -, h1⟩ := h
      cases k with
      | begin => exact Or.inl ⟨body, rfl, by rw [(List.cons.inj he).2]; simp, h1.1, h1.2⟩
      | simple => exact Or.inr ⟨body, rfl, by rw [(List.cons.inj he).2]; simp, h1.1, h1.2⟩
      | middle => exact absurd (List.cons.inj he).1 (by decide)
      | end_ => exact absurd (List.cons.inj he).1 (by decide)
  · rintro (⟨body, rfl, rfl, h, rfl⟩ | ⟨body, rfl, rfl, h, rfl⟩)
    · exact ⟨by simp [TokenType.display], hl, h, rfl⟩
    · exact ⟨by simp [TokenType.display], hl, h, rfl⟩

theorem lex_left {bs bs' : List BraceType} : ('{' :: r = ty.display ++ rest ∧ Lexeme c bs ty rest bs') ↔
    ty = .symbol .leftBrace ∧ r = rest ∧ bs' = if c.has .luau then .normal :: bs else bs := by
  have hf : Symbol.all.filter (fun y => y.text.head? == some '{') = [.leftBrace] := by decide +kernel
  constructor
  · intro h
    rcases lex_special (by simp) h with ⟨y, rfl, h1, h2⟩ | ⟨body, n, q, rfl, hq⟩ | ⟨body, k, rfl⟩
    · obtain ⟨h3, h4⟩ := sym_start h1 hf
      rw [List.mem_singleton] at h3
      subst h3
      exact ⟨rfl, (List.cons.inj h4).2, h2⟩
    · cases q <;> first | exact absurd rfl hq | exact absurd (List.cons.inj h.1).1 (by decide)
    · cases k <;> exact absurd (List.cons.inj h.1).1 (by decide)
  · rintro ⟨rfl, rfl, rfl⟩
    obtain ⟨y, e, hw, he, h1, h2, h3⟩ := symOk_mk (c := c) .leftBrace (rest := r) (l := '{' :: r) rfl rfl rfl (by simp [extsTable]) trivial
    cases e
    exact ⟨rfl, h1, fun h => absurd h hw, fun _ => h2, h3, rfl⟩

theorem lex_right {bs bs' : List BraceType} : ('}' :: r = ty.display ++ rest ∧ Lexeme c bs ty rest bs') ↔
    (ty = .symbol .rightBrace ∧ r = rest ∧ if c.has .luau then bs.head? ≠ some .interpolatedString ∧ bs' = bs.tail else bs' = bs) ∨
    c.has .luau = true ∧ bs.head? = some .interpolatedString ∧
    ((∃ body, ty = .interpolated body .middle ∧ r = body ++ '{' :: rest ∧ SectionBody ('{' :: rest) false false body ∧ bs' = bs) ∨
    (∃ body, ty = .interpolated body .end_ ∧ r = body ++ '`' :: rest ∧ SectionBody ('`' :: rest) false false body ∧ bs' = bs.tail)) := by
  have hf : Symbol.all.filter (fun y => y.text.head? == some '}') = [.rightBrace] := by decide +kernel
  constructor
  · intro h
    rcases lex_special (by simp) h with ⟨y, rfl, h1, h2⟩ | ⟨body, n, q, rfl, hq⟩ | ⟨body, k, rfl⟩
    · obtain ⟨h3, h4⟩ := sym_start h1 hf
      rw [List.mem_singleton] at h3
      subst h3
      exact Or.inl ⟨rfl, (List.cons.inj h4).2, h2⟩
    · cases q <;> first | exact absurd rfl hq | exact absurd (List.cons.inj h.1).1 (by decide)
    · right
      cases k with
      | begin => exact absurd (List.cons.inj h.1).1 (by decide)
      | simple => exact absurd (List.cons.inj h.1).1 (by decide)
      | middle =>
        obtain ⟨he, hl, h1, h2, h3⟩ := h
        exact ⟨hl, h2, Or.inl ⟨body, rfl, by rw [(List.cons.inj he).2]; simp, h1, h3⟩⟩
      | end_ =>
        obtain ⟨he, hl, h1, rfl⟩ := h
        exact ⟨hl, rfl, Or.inr ⟨body, rfl, by rw [(List.cons.inj he).2]; simp, h1, rfl⟩⟩
  · rintro (⟨rfl, rfl, h⟩ | ⟨hl, hb, ⟨body, rfl, rfl, h, rfl⟩ | ⟨body, rfl, rfl, h, rfl⟩⟩)
    · obtain ⟨y, e, hw, he, h1, h2, h3⟩ := symOk_mk (c := c) .rightBrace (rest := r) (l := '}' :: r) rfl rfl rfl (by simp [extsTable]) trivial
      cases e
      exact ⟨rfl, h1, fun h => absurd h hw, fun _ => h2, h3, h⟩
    · exact ⟨by simp [TokenType.display], hl, h, hb, rfl⟩
    · refine ⟨by simp [TokenType.display], hl, h, ?_⟩
      cases bs with
      | nil => cases hb
      | cons b bs => cases hb; rfl

theorem stepOut_section {l : Lx} {k1 k2 : InterpKind} {bs' : List BraceType} : stepOut (.ok (readSection l st k1 k2)) = some (ty, rest, bs') ↔
    (∃ body, ty = .interpolated body k1 ∧ l.src.rest = body ++ '{' :: rest ∧ SectionBody ('{' :: rest) false false body ∧ bs' = .interpolatedString :: l.braces) ∨
    (∃ body, ty = .interpolated body k2 ∧ l.src.rest = body ++ '`' :: rest ∧ SectionBody ('`' :: rest) false false body ∧ bs' = l.braces) := by
  have e1 := fun lit => sectionLoop_out (rest := rest) (p := l.src.pos) (k := .brace) rfl (Nat.le_refl l.src.rest.length) (lit := []) (lit' := lit) (e := false) (z := false)
  have e2 := fun lit => sectionLoop_out (rest := rest) (p := l.src.pos) (k := .backtick) rfl (Nat.le_refl l.src.rest.length) (lit := []) (lit' := lit) (e := false) (z := false)
  unfold readSection
  generalize sectionLoop l.src.rest.length l.src.rest l.src.pos [] false false = q at e1 e2
  obtain ⟨lit, k, s⟩ := q
  have f1 : ∀ {body : Text}, l.src.rest = body ++ '{' :: rest → SectionBody ('{' :: rest) false false body → lit = body ∧ k = .brace ∧ s.rest = rest := by
    intro body h1 h2
    obtain ⟨s', h3, h4⟩ := (e1 body).2 ⟨body, h1, rfl, h2⟩
    cases h3
    exact ⟨rfl, rfl, h4⟩
  have f2 : ∀ {body : Text}, l.src.rest = body ++ '`' :: rest → SectionBody ('`' :: rest) false false body → lit = body ∧ k = .backtick ∧ s.rest = rest := by
    intro body h1 h2
    obtain ⟨s', h3, h4⟩ := (e2 body).2 ⟨body, h1, rfl, h2⟩
    cases h3
    exact ⟨rfl, rfl, h4⟩
  constructor
  · intro h
    cases k with
    | brace =>
      cases h
      obtain ⟨body, h1, h2, h3⟩ := (e1 lit).1 ⟨s, rfl, rfl⟩
      cases h2
      exact Or.inl ⟨body, rfl, h1, h3, rfl⟩
    | backtick =>
      cases h
      obtain ⟨body, h1, h2, h3⟩ := (e2 lit).1 ⟨s, rfl, rfl⟩
      cases h2
      exact Or.inr ⟨body, rfl, h1, h3, rfl⟩
    | unclosed => cases h
  · rintro (⟨body, rfl, h1, h2, rfl⟩ | ⟨body, rfl, h1, h2, rfl⟩)
    · obtain ⟨rfl, rfl, rfl⟩ := f1 h1 h2
      rfl
    · obtain ⟨rfl, rfl, rfl⟩ := f2 h1 h2
      rfl

theorem stepOut_string {l : Lx} {q : Char} {qt : Quote} {bs' : List BraceType} (hq : q ≠ '\\' ∧ q ≠ '\n' ∧ q ≠ '\r') (hqt : quoteType c q = some qt) :
    stepOut ((readString c st q ⟨r, p⟩).bind fun res => .ok (l.finish res)) = some (ty, rest, bs') ↔
    (∃ body, ty = .stringLiteral body 0 qt ∧ r = body ++ q :: rest ∧ StringBody c q false body) ∧ bs' = l.braces := by
  have e := fun lit => stringLoop_out (c := c) (rest := rest) (p := p) hq (l := r) (lit := []) (lit' := lit) (e := false) (z := false)
  unfold readString
  rw [hqt]
  dsimp only
  generalize stringLoop c q r p [] false false = w at e
  obtain ⟨lit, b, s⟩ := w
  rw [show ∀ q : ReadRes, (Outcome.ok q).bind (fun res => .ok (l.finish res)) = .ok (l.finish q) from fun _ => rfl, stepOut_finish]
  refine and_congr_left' ?_
  constructor
  · intro h
    cases b with
    | true => simp [createRecovered, LexRes.new, out] at h
    | false =>
      cases h
      obtain ⟨body, h1, h2, h3⟩ := (e lit).1 ⟨s, rfl, rfl⟩
      cases h2
      exact ⟨body, rfl, h1, h3⟩
  · rintro ⟨body, rfl, h1, h2⟩
    obtain ⟨s', h3, h4⟩ := (e body).2 ⟨body, h1, rfl, h2⟩
    cases h3
    rw [← h4]
    rfl

/-- A step of the lexer finds the lexeme that the specification allows, and finds no other. -/
theorem step_iff (hc : c.Good) {l : Lx} {bs' : List BraceType} (hne : l.src.rest ≠ []) :
    stepOut (processNext c l) = some (ty, rest, bs') ↔ l.src.rest = ty.display ++ rest ∧ Lexeme c l.braces ty rest bs' := by
  obtain ⟨⟨text, p⟩, b, bs⟩ := l
  cases text with
  | nil => exact absurd rfl hne
  | cons ch r =>
    unfold processNext
    dsimp only
    by_cases h1 : ch = '"'
    · subst h1
      rw [if_pos (by simp), if_neg (by simp), lex_double]
      exact stepOut_string (by decide) rfl
    by_cases h2 : ch = '\''
    · subst h2
      rw [if_pos (by simp), if_neg (by simp), lex_single]
      exact stepOut_string (by decide) rfl
    by_cases h3 : ch = '`'
    · subst h3
      rw [if_pos (by simp)]
      cases hl : c.has .luau with
      | true =>
        rw [if_pos ⟨hl, rfl⟩, lex_backtick hl]
        exact stepOut_section
      | false =>
        rw [if_neg (by rintro ⟨h, -⟩; rw [show c.luau = false from hl] at h; cases h), lex_backtick_string hl]
        cases hx : c.feat.cfxlua with
        | false =>
          have : quoteType c '`' = none := by simp [quoteType, hx]
          simp [readString, this, Outcome.bind, stepOut]
        | true =>
          have : quoteType c '`' = some .backtick := by simp [quoteType, hx]
          rw [stepOut_string (by decide) this]
          simp
    rw [if_neg (by simp [h1, h2, h3])]
    by_cases h4 : ch = '{'
    · subst h4
      rw [if_pos rfl, lex_left, stepOut_finish]
      simp only [symTok, out_create, Option.some.injEq, Prod.mk.injEq, and_assoc]
      exact ⟨fun h => ⟨h.1.symm, h.2⟩, fun h => ⟨h.1.symm, h.2⟩⟩
    rw [if_neg h4]
    by_cases h5 : ch = '}'
    · subst h5
      rw [if_pos rfl, lex_right]
      cases hl : c.has .luau with
      | true =>
        rw [if_pos (show c.luau = true from hl)]
        by_cases hb : bs.head? = some .interpolatedString
        · rw [if_pos hb, stepOut_section]
          have hb' : BraceType.interpolatedString :: bs.tail = bs := by
            cases bs with
            | nil => cases hb
            | cons x bs => cases hb; rfl
          simp [hb, hb']
        · rw [if_neg hb, stepOut_finish]
          simp only [symTok, out_create, Option.some.injEq, Prod.mk.injEq, and_assoc, hb]
          simp only [eq_comm]
          exact ⟨fun h => Or.inl ⟨h.1, h.2.1, by simpa [eq_comm] using ⟨hb, h.2.2⟩⟩, fun h => by simpa [hb, eq_comm] using h⟩
      | false =>
        rw [if_neg (by rw [show c.luau = false from hl]; decide), stepOut_finish]
        simp only [symTok, out_create, Option.some.injEq, Prod.mk.injEq, and_assoc]
        simp [eq_comm]
    rw [if_neg h5, stepOut_finish, readPlain_out hc ⟨h4, h5⟩, lex_plain ⟨h4, h5, h1, h2, h3⟩]

end FM
