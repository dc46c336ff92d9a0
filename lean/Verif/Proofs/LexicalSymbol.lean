import Verif.Proofs.LexicalTokens
import Verif.Proofs.LexerStep

/-! Helper lemmas for C51: symbols. -/

namespace FM
open Spec

variable {c : Cfg} {st p : Position} {ty ty' : TokenType} {rest rest' : Text}

/-- The symbols that extend a symbol. -/
def exts (y : Symbol) : List Symbol := Symbol.all.filter fun z => y.text.isPrefixOf z.text && decide (y.text.length < z.text.length)

/-- `exts` of the symbols that are no words. -/
def extsTable : Symbol → List Symbol
  | .ampersand => [.ampersandEqual]
  | .caret => [.caretEqual]
  | .colon => [.twoColons]
  | .dot => [.twoDotsEqual, .twoDots, .ellipsis]
  | .twoDots => [.twoDotsEqual, .ellipsis]
  | .equal => [.twoEqual]
  | .greaterThan => [.doubleGreaterThanEqual, .greaterThanEqual, .doubleGreaterThan]
  | .doubleGreaterThan => [.doubleGreaterThanEqual]
  | .lessThan => [.doubleLessThanEqual, .lessThanEqual, .doubleLessThan]
  | .doubleLessThan => [.doubleLessThanEqual]
  | .minus => [.minusEqual, .thinArrow]
  | .percent => [.percentEqual]
  | .pipe => [.pipeEqual]
  | .plus => [.plusEqual]
  | .questionMark => [.questionMarkDot]
  | .slash => [.slashEqual, .doubleSlashEqual, .doubleSlash]
  | .doubleSlash => [.doubleSlashEqual]
  | .star => [.starEqual]
  | .tilde => [.tildeEqual]
  | _ => []

theorem exts_table : Symbol.all.all (fun y => startsWith isIdentStart y.text || exts y == extsTable y) = true := by decide +kernel

theorem exts_eq {y : Symbol} (h : startsWith isIdentStart y.text = false) : exts y = extsTable y := by
  have := List.all_eq_true.1 exts_table y y.mem_all
  simpa [h] using this

theorem isWord_start {t : Text} (h : IsWord t) : startsWith isIdentStart t = true := by
  cases t with
  | nil => exact h.elim
  | cons ch t => exact isIdentStart_iff.2 ⟨h.1, h.2.1⟩

theorem sym_word_table : Symbol.all.all (fun y => startsWith isIdentStart y.text == true && y.text.all isWordChar || startsWith isWordChar y.text == false && !y.text.isEmpty) = true := by
  decide +kernel

theorem sym_word {y : Symbol} : IsWord y.text ∨ ¬ IsWord y.text ∧ startsWith isWordChar y.text = false ∧ y.text ≠ [] := by
  have := List.all_eq_true.1 sym_word_table y y.mem_all
  simp only [Bool.or_eq_true, Bool.and_eq_true, beq_iff_eq] at this
  rcases this with ⟨h1, h2⟩ | ⟨h1, h2⟩
  · left
    cases ht : y.text with
    | nil => rw [ht] at h1; cases h1
    | cons ch t =>
      rw [ht] at h1 h2
      simp only [List.all_cons, Bool.and_eq_true, List.all_eq_true] at h2
      exact isWord_cons h1 h2.2
  · right
    refine ⟨fun h => ?_, h1, fun h => by rw [h] at h2; cases h2⟩
    cases ht : y.text with
    | nil => rw [ht] at h; exact h
    | cons ch t =>
      rw [ht] at h h1
      have := h.1
      rw [show isWordChar ch = false from h1] at this
      cases this

/-- The text starts with a symbol that is to be read. -/
def SymOk (c : Cfg) (l : Text) (ty : TokenType) (rest : Text) : Prop :=
  ∃ y, ty = .symbol y ∧ ¬ IsWord y.text ∧ l = y.text ++ rest ∧ Enabled c y ∧ Longest c y rest ∧ NotMore c y rest

theorem symOk_unique {l : Text} (h : SymOk c l ty rest) (h' : SymOk c l ty' rest') : ty = ty' ∧ rest = rest' := by
  obtain ⟨y, rfl, hw, he, hen, hl, -⟩ := h
  obtain ⟨y', rfl, hw', he', hen', hl', -⟩ := h'
  have h1 := hl y' hen' hw' (by rw [← he, he']; exact List.prefix_append _ _)
  have h2 := hl' y hen hw (by rw [← he', he]; exact List.prefix_append _ _)
  have h3 : y.text.length = y'.text.length := by omega
  rw [he] at he'
  obtain ⟨h4, rfl⟩ := List.append_inj he' h3
  rw [Symbol.text_inj h4]
  exact ⟨rfl, rfl⟩

/-- A reader that finds the symbol to be read finds nothing else. -/
theorem sym_iff {q : ReadRes} {l : Text} (h : ∃ ty0 rest0, out q = some (ty0, rest0) ∧ SymOk c l ty0 rest0) :
    out q = some (ty, rest) ↔ SymOk c l ty rest := by
  obtain ⟨ty0, rest0, h1, h2⟩ := h
  constructor
  · intro h3
    rw [h1] at h3
    cases h3
    exact h2
  · intro h3
    obtain ⟨rfl, rfl⟩ := symOk_unique h2 h3
    exact h1

theorem longest_of {y : Symbol} (h : ∀ z ∈ exts y, c.hasAny z.gates = true → ¬ z.text.drop y.text.length <+: rest) : Longest c y rest := by
  intro z he _ hp
  apply Nat.le_of_not_lt
  intro hlen
  have h1 : y.text <+: z.text := List.prefix_of_prefix_length_le (List.prefix_append _ _) hp (by omega)
  obtain ⟨w, hw⟩ := h1
  refine h z ?_ ((enabled_iff _ _).1 he) ?_
  · simp only [exts, List.mem_filter, Bool.and_eq_true, decide_eq_true_eq, List.isPrefixOf_iff_prefix]
    exact ⟨z.mem_all, ⟨w, hw⟩, hlen⟩
  · rw [← hw, List.drop_left]
    rw [← hw] at hp
    exact (List.prefix_append_right_inj _).1 hp

theorem symOk_mk (y : Symbol) {l : Text} (hs : startsWith isIdentStart y.text = false) (hl : l = y.text ++ rest) (hg : c.hasAny y.gates = true)
    (hx : ∀ z ∈ extsTable y, c.hasAny z.gates = true → ¬ z.text.drop y.text.length <+: rest) (hn : NotMore c y rest) :
    SymOk c l (.symbol y) rest :=
  ⟨y, rfl, (fun h => by rw [isWord_start h] at hs; cases hs), hl, (enabled_iff _ _).2 hg, longest_of (by rw [exts_eq hs]; exact hx), hn⟩

theorem found {y : Symbol} {l r : List Char} (h : SymOk c l (.symbol y) r) : ∃ ty0 rest0, out (symTok st y ⟨r, p⟩) = some (ty0, rest0) ∧ SymOk c l ty0 rest0 :=
  ⟨_, r, rfl, h⟩

/-- A single symbol. -/
theorem single_out (y : Symbol) {ch : Char} {r : List Char} (hs : startsWith isIdentStart y.text = false) (ht : y.text = [ch]) (hg : y.gates = [])
    (hx : extsTable y = []) (hn : NotMore c y r) : out (symTok st y ⟨r, p⟩) = some (ty, rest) ↔ SymOk c (ch :: r) ty rest :=
  sym_iff (found (symOk_mk y hs (by rw [ht]; rfl) (by rw [hg]; rfl) (by rw [hx]; simp) hn))

theorem consume_nil {k : Char} : (Src.mk [] p).consume k = (false, ⟨[], p⟩) := rfl
theorem consume_cons {k x : Char} {r : List Char} : (Src.mk (x :: r) p).consume k = if x = k then (true, ⟨r, p.advance x⟩) else (false, ⟨x :: r, p⟩) := by
  simp [Src.consume, Src.current, Src.advance]

theorem readEqual_out {r : List Char} : out (readEqual st ⟨r, p⟩) = some (ty, rest) ↔ SymOk c ('=' :: r) ty rest := by
  refine sym_iff ?_
  unfold readEqual
  cases r with
  | nil => refine found (symOk_mk .equal rfl rfl rfl (by simp [extsTable, Symbol.text]) trivial)
  | cons x r =>
    rw [consume_cons]
    by_cases h : x = '='
    · subst h
      refine found (symOk_mk .twoEqual rfl rfl rfl (by simp [extsTable]) trivial)
    · rw [if_neg h]
      refine found (symOk_mk .equal rfl rfl rfl (by simp [extsTable, Symbol.text, Ne.symm h]) trivial)

/-- No symbol of the active versions starts the text. -/
theorem symOk_none {ch : Char} {r : List Char} (h : ∀ y ∈ Symbol.all.filter (fun y => y.text.head? == some ch), c.hasAny y.gates = true → ¬ y.text.tail <+: r) :
    ¬ SymOk c (ch :: r) ty rest := by
  rintro ⟨y, rfl, hw, he, hen, -⟩
  cases ht : y.text with
  | nil =>
    rcases sym_word (y := y) with h1 | h1
    · exact hw h1
    · exact h1.2.2 ht
  | cons x t =>
    rw [ht] at he
    cases he
    refine h y ?_ ((enabled_iff _ _).1 hen) ?_
    · simp [y.mem_all, ht]
    · rw [ht]; exact List.prefix_append _ _

theorem readTilde_out {r : List Char} : out (readTilde c st ⟨r, p⟩) = some (ty, rest) ↔ SymOk c ('~' :: r) ty rest := by
  have hf : Symbol.all.filter (fun y => y.text.head? == some '~') = [.tilde, .tildeEqual] := by decide +kernel
  have plain : r.head? ≠ some '=' → (out (if c.hasAny [.lua53] then symTok st .tilde ⟨r, p⟩ else (.fatal [⟨.invalidSymbol ['~'], (st, p)⟩], ⟨r, p⟩)) = some (ty, rest) ↔ SymOk c ('~' :: r) ty rest) := by
    intro hr
    have hp : ¬ ['='] <+: r := by rintro ⟨t, rfl⟩; simp at hr
    split
    · rename_i h
      refine sym_iff (found (symOk_mk .tilde rfl rfl h (by simpa [extsTable, Symbol.text] using fun _ => hp) trivial))
    · rename_i h
      refine iff_of_false (by simp [out]) (symOk_none ?_)
      rw [hf]
      simp only [List.mem_cons, List.not_mem_nil, or_false]
      rintro y (rfl | rfl) hy
      · exact absurd hy h
      · exact hp
  unfold readTilde
  cases r with
  | nil => exact plain (by simp)
  | cons x r =>
    rw [consume_cons]
    split
    · rename_i h
      split at h
      · rename_i h'
        subst h'
        cases h
        refine sym_iff (found (symOk_mk .tildeEqual rfl rfl rfl (by simp [extsTable]) trivial))
      · cases h
    · rename_i h
      split at h
      · cases h
      · rename_i h'
        cases h
        exact plain (by simpa using h')

theorem readGated_out {vs : List Ver} {ch k : Char} {y z : Symbol} {r : List Char} (hvs : c.hasAny y.gates = c.hasAny vs) (hz : z.gates = []) (hzt : z.text = [ch])
    (hyt : y.text = [ch, k]) (hch : isIdentStart ch = false) (hzx : extsTable z = [y]) (hyx : extsTable y = []) (hny : ∀ r, NotMore c y r) (hnz : ∀ r, NotMore c z r) :
    out (readGated c vs k y z st ⟨r, p⟩) = some (ty, rest) ↔ SymOk c (ch :: r) ty rest := by
  have hzs : startsWith isIdentStart z.text = false := by rw [hzt]; exact hch
  have hys : startsWith isIdentStart y.text = false := by rw [hyt]; exact hch
  refine sym_iff ?_
  unfold readGated
  split
  · rename_i hv
    cases r with
    | nil => refine found (symOk_mk z hzs (by rw [hzt]; rfl) (by rw [hz]; rfl) (by simp [hzx, hzt, hyt]) (hnz _))
    | cons x r =>
      rw [consume_cons]
      split
      · rename_i s h
        split at h
        · rename_i h'
          subst h'
          cases h
          refine found (symOk_mk y hys (by rw [hyt]; rfl) (by rw [hvs, hv]) (by simp [hyx]) (hny _))
        · cases h
      · rename_i s h
        split at h
        · cases h
        · rename_i h'
          cases h
          refine found (symOk_mk z hzs (by rw [hzt]; rfl) (by rw [hz]; rfl) (by simp [hzx, hzt, hyt, Ne.symm h']) (hnz _))
  · rename_i hv
    refine found (symOk_mk z hzs (by rw [hzt]; rfl) (by rw [hz]; rfl) (by simp [hzx, hvs, hv]) (hnz _))

theorem readAngle_out (hc : c.Good) {ch : Char} {dblEq dbl withEq plain : Symbol} {r : List Char} (hch : isIdentStart ch = false ∧ ch ≠ '=')
    (t1 : dblEq.text = [ch, ch, '='] ∧ dblEq.gates = [.cfxlua] ∧ extsTable dblEq = []) (t2 : dbl.text = [ch, ch] ∧ dbl.gates = [.lua53] ∧ extsTable dbl = [dblEq])
    (t3 : withEq.text = [ch, '='] ∧ withEq.gates = [] ∧ extsTable withEq = []) (t4 : plain.text = [ch] ∧ plain.gates = [] ∧ extsTable plain = [dblEq, withEq, dbl])
    (hn : ∀ y ∈ [dblEq, dbl, withEq, plain], ∀ r, NotMore c y r) :
    out (readAngle c ch dblEq dbl withEq plain st ⟨r, p⟩) = some (ty, rest) ↔ SymOk c (ch :: r) ty rest := by
  have mk : ∀ y ∈ [dblEq, dbl, withEq, plain], ∀ {rest}, ch :: r = y.text ++ rest → c.hasAny y.gates = true →
      (∀ z ∈ extsTable y, c.hasAny z.gates = true → ¬ z.text.drop y.text.length <+: rest) → SymOk c (ch :: r) (.symbol y) rest := by
    intro y hy rest h1 h2 h3
    refine symOk_mk y ?_ h1 h2 h3 (hn y hy _)
    simp only [List.mem_cons, List.not_mem_nil, or_false] at hy
    rcases hy with rfl | rfl | rfl | rfl
    · rw [t1.1]; exact hch.1
    · rw [t2.1]; exact hch.1
    · rw [t3.1]; exact hch.1
    · rw [t4.1]; exact hch.1
  have h53 : c.has .cfxlua = true → c.has .lua53 = true := hc
  -- without a second `ch`
  have single : (r.head? = some ch → c.has .lua53 = false) → ∃ ty0 rest0, out (match (Src.mk r p).consume '=' with
      | (true, s) => symTok st withEq s
      | (false, s) => symTok st plain s) = some (ty0, rest0) ∧ SymOk c (ch :: r) ty0 rest0 := by
    intro hr
    have hx : r.head? = some ch → c.has .cfxlua = false := by
      intro h
      cases hx : c.has .cfxlua with
      | false => rfl
      | true => rw [hr h] at h53; exact absurd (h53 hx) (by decide)
    cases r with
    | nil =>
      refine found (mk plain (by simp) (by rw [t4.1]; rfl) (by rw [t4.2.1]; rfl) ?_)
      simp [t4, t1, t2, t3]
    | cons x r =>
      rw [consume_cons]
      split
      · rename_i s h
        split at h
        · rename_i h'
          subst h'
          cases h
          refine found (mk withEq (by simp) (by rw [t3.1]; rfl) (by rw [t3.2.1]; rfl) (by simp [t3]))
        · cases h
      · rename_i s h
        split at h
        · cases h
        · rename_i h'
          cases h
          refine found (mk plain (by simp) (by rw [t4.1]; rfl) (by rw [t4.2.1]; rfl) ?_)
          simp only [t4.2.2, List.mem_cons, List.not_mem_nil, or_false]
          rintro z (rfl | rfl | rfl) hz
          · rw [t1.1, t4.1]
            rw [t1.2.1, Cfg.hasAny_one] at hz
            intro hp
            simp at hp
            have := hx (by simp [hp.1])
            rw [hz] at this; cases this
          · rw [t3.1, t4.1]; simpa using Ne.symm h'
          · rw [t2.1, t4.1]
            rw [t2.2.1, Cfg.hasAny_one] at hz
            intro hp
            simp at hp
            have := hr (by simp [hp])
            rw [hz] at this; cases this
  refine sym_iff ?_
  unfold readAngle
  dsimp only
  split
  · rename_i hv
    rw [Cfg.hasAny_two] at hv
    have h3 : c.has .lua53 = true := by
      rw [Bool.or_eq_true] at hv
      rcases hv with h | h
      · exact h
      · exact h53 h
    cases r with
    | nil => exact single (by simp)
    | cons x r =>
      rw [consume_cons]
      split
      · rename_i s h
        split at h
        · rename_i h'
          subst h'
          cases h
          split
          · rename_i hx
            cases r with
            | nil => refine found (mk dbl (by simp) (by rw [t2.1]; rfl) (by rw [t2.2.1, Cfg.hasAny_one]; exact h3) (by simp [t2, t1]))
            | cons x' r =>
              rw [consume_cons]
              split
              · rename_i s h
                split at h
                · rename_i h'
                  subst h'
                  cases h
                  refine found (mk dblEq (by simp) (by rw [t1.1]; rfl) (by rw [t1.2.1]; exact hx) (by simp [t1]))
                · cases h
              · rename_i s h
                split at h
                · cases h
                · rename_i h'
                  cases h
                  refine found (mk dbl (by simp) (by rw [t2.1]; rfl) (by rw [t2.2.1, Cfg.hasAny_one]; exact h3) (by simp [t2, t1, Ne.symm h']))
          · rename_i hx
            refine found (mk dbl (by simp) (by rw [t2.1]; rfl) (by rw [t2.2.1, Cfg.hasAny_one]; exact h3) ?_)
            simp only [t2.2.2, List.mem_cons, List.not_mem_nil, or_false]
            rintro z rfl hz
            rw [t1.2.1] at hz
            exact absurd hz hx
        · cases h
      · rename_i s h
        split at h
        · cases h
        · rename_i h'
          cases h
          exact single (by simpa using fun h => absurd h h')
  · rename_i hv
    rw [Cfg.hasAny_two, Bool.not_eq_true, Bool.or_eq_false_iff] at hv
    exact single fun _ => hv.1


theorem symOk_none' {ch : Char} {r : List Char} (h : ∀ y ∈ Symbol.all.filter (fun y => y.text.head? == some ch), c.hasAny y.gates = true → NotMore c y rest → r ≠ y.text.tail ++ rest) :
    ¬ SymOk c (ch :: r) ty rest := by
  rintro ⟨y, rfl, hw, he, hen, -, hn⟩
  cases ht : y.text with
  | nil =>
    rcases sym_word (y := y) with h1 | h1
    · exact hw h1
    · exact h1.2.2 ht
  | cons x t =>
    rw [ht] at he
    cases he
    refine h y ?_ ((enabled_iff _ _).1 hen) hn ?_
    · simp [y.mem_all, ht]
    · rw [ht]; rfl

theorem symOr_iff {q : ReadRes} {l : Text} {P : Prop} (h : ∃ ty0 rest0, out q = some (ty0, rest0) ∧ SymOk c l ty0 rest0) (hp : ¬ P) :
    out q = some (ty, rest) ↔ SymOk c l ty rest ∨ P := by
  rw [sym_iff h, or_iff_left hp]

theorem orSym_iff {q : ReadRes} {l : Text} {P : Prop} (h : out q = some (ty, rest) ↔ P) (hp : ¬ SymOk c l ty rest) :
    out q = some (ty, rest) ↔ SymOk c l ty rest ∨ P := by
  rw [h, or_iff_right hp]

theorem readSlash_out (hc : c.Good) {r : List Char} : out (readSlash c st ⟨r, p⟩) = some (ty, rest) ↔
    SymOk c ('/' :: r) ty rest ∨ ∃ t, ty = .cStyleComment t ∧ c.has .cfxlua = true ∧ r = '*' :: (t ++ ['*', '/'] ++ rest) ∧ ClosesFirst ['*', '/'] t := by
  have hf : Symbol.all.filter (fun y => y.text.head? == some '/') = [.slashEqual, .doubleSlashEqual, .slash, .doubleSlash] := by decide +kernel
  have h53 : c.has .cfxlua = true → c.has .lua53 = true := hc
  have nc : r.head? ≠ some '*' → ¬ ∃ t, ty = .cStyleComment t ∧ c.has .cfxlua = true ∧ r = '*' :: (t ++ ['*', '/'] ++ rest) ∧ ClosesFirst ['*', '/'] t := by
    rintro h ⟨t, -, -, rfl, -⟩
    exact h rfl
  have g1 : Symbol.slashEqual.gates = [.luau, .cfxlua] := rfl
  have g2 : Symbol.doubleSlash.gates = [.luau, .lua53] := rfl
  have g3 : Symbol.doubleSlashEqual.gates = [.luau] := rfl
  unfold readSlash
  split
  · rename_i hv
    cases r with
    | nil =>
      refine symOr_iff ?_ (nc (by simp))
      have : ∀ b : Bool, (if b = true then (Src.mk [] p).consume '=' else (false, ⟨[], p⟩)) = (false, ⟨[], p⟩) := by intro b; cases b <;> rfl
      have h2 : ∀ b : Bool, (if b = true then (Src.mk [] p).consume '*' else (false, ⟨[], p⟩)) = (false, ⟨[], p⟩) := by intro b; cases b <;> rfl
      rw [consume_nil]
      simp only [this, h2]
      exact found (symOk_mk .slash rfl rfl rfl (by simp [extsTable, Symbol.text]) (by simp [NotMore]))
    | cons x r =>
      rw [consume_cons]
      by_cases h1 : x = '/'
      · subst h1
        refine symOr_iff ?_ (nc (by simp))
        rw [if_pos rfl]
        dsimp only
        have hd : c.hasAny Symbol.doubleSlash.gates = true := by
          rw [g2, Cfg.hasAny_two]
          rw [Cfg.hasAny_three] at hv
          cases h1 : c.has .lua53 <;> cases h2 : c.has .luau <;> simp_all
        split
        · rename_i hl
          cases r with
          | nil => exact found (symOk_mk .doubleSlash rfl rfl hd (by simp [extsTable, Symbol.text]) trivial)
          | cons x' r =>
            rw [consume_cons]
            by_cases h2 : x' = '='
            · subst h2
              exact found (symOk_mk .doubleSlashEqual rfl rfl hl (by simp [extsTable]) trivial)
            · rw [if_neg h2]
              exact found (symOk_mk .doubleSlash rfl rfl hd (by simp [extsTable, Symbol.text, Ne.symm h2]) trivial)
        · rename_i hl
          refine found (symOk_mk .doubleSlash rfl rfl hd ?_ trivial)
          simp [extsTable, g3, hl]
      · rw [if_neg h1]
        dsimp only
        by_cases h2 : c.hasAny [.luau, .cfxlua] = true ∧ x = '='
        · obtain ⟨h2, rfl⟩ := h2
          refine symOr_iff ?_ (nc (by simp))
          rw [if_pos h2, consume_cons, if_pos rfl]
          exact found (symOk_mk .slashEqual rfl rfl h2 (by simp [extsTable]) trivial)
        · have e2 : (if c.hasAny [.luau, .cfxlua] = true then (Src.mk (x :: r) p).consume '=' else (false, ⟨x :: r, p⟩)) = (false, ⟨x :: r, p⟩) := by
            split
            · rename_i h; rw [consume_cons, if_neg fun h' => h2 ⟨h, h'⟩]
            · rfl
          rw [e2]
          dsimp only
          by_cases h3 : c.hasAny [.cfxlua] = true ∧ x = '*'
          · obtain ⟨h3, rfl⟩ := h3
            refine orSym_iff ?_ (symOk_none' ?_)
            · rw [if_pos h3, consume_cons, if_pos rfl]
              dsimp only
              rw [commentToken_out]
              constructor
              · rintro ⟨rfl, h, h'⟩
                refine ⟨_, rfl, by rwa [Cfg.hasAny_one] at h3, ?_⟩
                have key := (cStyle_out (p := p.advance '*') (rest := rest) (l := r) (t := (cStyleLoop r (p.advance '*') []).1)).1 ⟨(cStyleLoop r (p.advance '*') []).2.2, by rw [← h], h'⟩
                exact ⟨congrArg _ key.1, key.2⟩
              · rintro ⟨t, rfl, -, h, h'⟩
                obtain ⟨s, e, h4⟩ := (cStyle_out (p := p.advance '*') (rest := rest) (l := r) (t := t)).2 ⟨(List.cons.inj h).2, h'⟩
                rw [e]
                exact ⟨rfl, rfl, h4⟩
            · rw [hf]
              simp only [List.mem_cons, List.not_mem_nil, or_false]
              rintro y (rfl | rfl | rfl | rfl) hy hn
              · simp [Symbol.text]
              · simp [Symbol.text]
              · rintro h
                have h : '*' :: r = rest := h
                rw [Cfg.hasAny_one] at h3
                exact hn h3 (by rw [← h]; rfl)
              · simp [Symbol.text]
          · have e3 : (if c.hasAny [.cfxlua] = true then (Src.mk (x :: r) p).consume '*' else (false, ⟨x :: r, p⟩)) = (false, ⟨x :: r, p⟩) := by
              split
              · rename_i h; rw [consume_cons, if_neg fun h' => h3 ⟨h, h'⟩]
              · rfl
            rw [e3]
            refine symOr_iff (found (symOk_mk .slash rfl rfl rfl ?_ ?_)) ?_
            · simp only [extsTable, List.mem_cons, List.not_mem_nil, or_false]
              rintro z (rfl | rfl | rfl) hz
              · intro hp
                simp [Symbol.text] at hp
                exact h2 ⟨hz, hp.symm⟩
              · simpa [Symbol.text] using fun h => absurd h.symm h1
              · simpa [Symbol.text] using Ne.symm h1
            · intro hx h
              simp at h
              exact h3 ⟨by rwa [Cfg.hasAny_one], h⟩
            · rintro ⟨t, -, hx, h, -⟩
              exact h3 ⟨by rwa [Cfg.hasAny_one], (List.cons.inj h).1⟩
  · rename_i hv
    rw [Cfg.hasAny_three, Bool.not_eq_true, Bool.or_eq_false_iff, Bool.or_eq_false_iff] at hv
    obtain ⟨v1, v2, v3⟩ := hv
    refine symOr_iff (found (symOk_mk .slash rfl rfl rfl ?_ ?_)) ?_
    · simp [extsTable, g1, g2, g3, Cfg.hasAny_two, Cfg.hasAny_one, v1, v2, v3]
    · intro h; rw [v3] at h; cases h
    · rintro ⟨t, -, h, -⟩
      rw [v3] at h; cases h

theorem headIs_digit (r : List Char) : headIs isDigit r = startsWith (fun ch => '0' ≤ ch && ch ≤ '9') r := by
  cases r <;> rfl

theorem readDot_out {r : List Char} : out (readDot c st ⟨r, p⟩) = some (ty, rest) ↔
    SymOk c ('.' :: r) ty rest ∨ ∃ t, ty = .number t ∧ '.' :: r = t ++ rest ∧ AnyNumber c t rest := by
  have hf : Symbol.all.filter (fun y => y.text.head? == some '.') = [.twoDotsEqual, .dot, .twoDots, .ellipsis] := by decide +kernel
  have nn : headIs isDigit r = false → ¬ ∃ t, ty = .number t ∧ '.' :: r = t ++ rest ∧ AnyNumber c t rest := by
    rintro h ⟨t, -, he, hn⟩
    obtain ⟨first, t', rfl, h1⟩ := anyNumber_first hn
    cases he
    rcases h1 with h1 | ⟨-, h1⟩
    · exact absurd h1 (by decide)
    · rw [headIs_digit] at h
      cases t' with
      | nil => cases h1
      | cons y t' => exact absurd (h1.symm.trans h) (by decide)
  unfold readDot
  cases r with
  | nil =>
    refine symOr_iff ?_ (nn rfl)
    exact found (symOk_mk .dot rfl rfl rfl (by simp [extsTable, Symbol.text]) rfl)
  | cons x r =>
    rw [consume_cons]
    by_cases h1 : x = '.'
    · subst h1
      rw [if_pos rfl]
      dsimp only
      refine symOr_iff ?_ (nn rfl)
      cases r with
      | nil =>
        rw [consume_nil]
        dsimp only
        split
        · exact found (symOk_mk .twoDots rfl rfl rfl (by simp [extsTable, Symbol.text]) trivial)
        · exact found (symOk_mk .twoDots rfl rfl rfl (by simp [extsTable, Symbol.text]) trivial)
      | cons x r =>
        rw [consume_cons]
        by_cases h2 : x = '.'
        · subst h2
          exact found (symOk_mk .ellipsis rfl rfl rfl (by simp [extsTable]) trivial)
        · rw [if_neg h2]
          dsimp only
          split
          · rename_i hl
            rw [consume_cons]
            by_cases h3 : x = '='
            · subst h3
              exact found (symOk_mk .twoDotsEqual rfl rfl hl (by simp [extsTable]) trivial)
            · rw [if_neg h3]
              exact found (symOk_mk .twoDots rfl rfl rfl (by simp [extsTable, Symbol.text, Ne.symm h2, Ne.symm h3]) trivial)
          · rename_i hl
            refine found (symOk_mk .twoDots rfl rfl rfl ?_ trivial)
            have g : Symbol.twoDotsEqual.gates = [.luau] := rfl
            simp [extsTable, Symbol.text, Ne.symm h2, g, hl]
    · rw [if_neg h1]
      dsimp only
      split
      · rename_i hd
        refine orSym_iff (readNumber_out (Or.inr ⟨rfl, by rw [← headIs_digit]; exact hd⟩) (by decide)) (symOk_none' ?_)
        rw [hf]
        simp only [List.mem_cons, List.not_mem_nil, or_false]
        rintro y (rfl | rfl | rfl | rfl) hy hn
        · simp [Symbol.text, h1]
        · intro h
          have h : x :: r = rest := h
          rw [← h] at hn
          have hn : startsWith (fun ch => '0' ≤ ch && ch ≤ '9') (x :: r) = false := hn
          rw [← headIs_digit, hd] at hn
          cases hn
        · simp [Symbol.text, h1]
        · simp [Symbol.text, h1]
      · rename_i hd
        have hd : headIs isDigit (x :: r) = false := by simpa using hd
        refine symOr_iff (found (symOk_mk .dot rfl rfl rfl ?_ ?_)) (nn hd)
        · simp [extsTable, Symbol.text, Ne.symm h1]
        · show startsWith _ _ = false
          rw [← headIs_digit]
          exact hd

theorem readMinusRest_out {r : List Char} (hx : ∀ z ∈ extsTable .minus, c.hasAny z.gates = true → ¬ z.text.drop 1 <+: r) :
    out (readMinusRest st ⟨r, p⟩) = some (ty, rest) ↔ SymOk c ('-' :: r) ty rest ∨ ∃ r', r = '-' :: r' ∧ CommentBody ty r' rest := by
  have hf : Symbol.all.filter (fun y => y.text.head? == some '-') = [.minusEqual, .thinArrow, .minus] := by decide +kernel
  unfold readMinusRest
  cases r with
  | nil =>
    refine symOr_iff (found (symOk_mk .minus rfl rfl rfl hx (by simp [NotMore]))) ?_
    rintro ⟨r', h, -⟩
    cases h
  | cons x r =>
    rw [consume_cons]
    by_cases h1 : x = '-'
    · subst h1
      rw [if_pos rfl]
      dsimp only
      refine orSym_iff ?_ (symOk_none' ?_)
      · rw [commentToken_out]
        have key := readComment_out (ty := ty) (rest := rest) (s := ⟨r, p.advance '-'⟩)
        constructor
        · rintro ⟨rfl, h2, h3⟩
          exact ⟨r, rfl, key.1 ⟨_, by rw [← h2], h3⟩⟩
        · rintro ⟨r', h, h'⟩
          cases h
          obtain ⟨s, e, h4⟩ := key.2 h'
          rw [e]
          exact ⟨rfl, rfl, h4⟩
      · rw [hf]
        simp only [List.mem_cons, List.not_mem_nil, or_false]
        rintro y (rfl | rfl | rfl) hy hn
        · simp [Symbol.text]
        · simp [Symbol.text]
        · intro h
          have h : '-' :: r = rest := h
          exact hn (by rw [← h]; rfl)
    · rw [if_neg h1]
      refine symOr_iff (found (symOk_mk .minus rfl rfl rfl hx (by simpa [NotMore] using h1))) ?_
      rintro ⟨r', h, -⟩
      exact h1 (List.cons.inj h).1

theorem readMinus_out {r : List Char} : out (readMinus c st ⟨r, p⟩) = some (ty, rest) ↔
    SymOk c ('-' :: r) ty rest ∨ ∃ r', r = '-' :: r' ∧ CommentBody ty r' rest := by
  have g1 : Symbol.minusEqual.gates = [.luau, .cfxlua] := rfl
  have g2 : Symbol.thinArrow.gates = [.luau] := rfl
  have nc : r.head? ≠ some '-' → ¬ ∃ r', r = '-' :: r' ∧ CommentBody ty r' rest := by
    rintro h ⟨t, rfl, -⟩
    exact h rfl
  unfold readMinus
  split
  · rename_i hv
    cases r with
    | nil =>
      rw [consume_nil]
      dsimp only
      split
      · rw [consume_nil]
        exact readMinusRest_out (by simp [extsTable, Symbol.text])
      · exact readMinusRest_out (by simp [extsTable, Symbol.text])
    | cons x r =>
      rw [consume_cons]
      by_cases h1 : x = '='
      · subst h1
        exact symOr_iff (found (symOk_mk .minusEqual rfl rfl hv (by simp [extsTable]) trivial)) (nc (by simp))
      · rw [if_neg h1]
        dsimp only
        split
        · rename_i hl
          rw [consume_cons]
          by_cases h2 : x = '>'
          · subst h2
            exact symOr_iff (found (symOk_mk .thinArrow rfl rfl hl (by simp [extsTable]) trivial)) (nc (by simp))
          · rw [if_neg h2]
            exact readMinusRest_out (by simp [extsTable, Symbol.text, Ne.symm h1, Ne.symm h2])
        · rename_i hl
          exact readMinusRest_out (by simp [extsTable, Symbol.text, Ne.symm h1, g2, hl])
  · rename_i hv
    have hl : ¬ c.hasAny [.luau] = true := by
      rw [Cfg.hasAny_two] at hv
      rw [Cfg.hasAny_one]
      intro h; simp [h] at hv
    exact readMinusRest_out (by simp [extsTable, Symbol.text, g1, g2, hv, hl])

/-- The first characters of the symbols that `readOther` does not know. -/
theorem others_table : Symbol.all.all (fun y => startsWith (fun ch => isWordChar ch || "=~()[]:,+*/%^#<>.-;{}&|?@".toList.contains ch) y.text) = true := by decide +kernel

theorem readOther_out {ch : Char} {r : List Char} (hch : isWordChar ch = false ∧ ch ∉ "=~()[]:,+*/%^#<>.-;{}".toList) :
    out (readOther c st ch ⟨r, p⟩) = some (ty, rest) ↔ SymOk c (ch :: r) ty rest := by
  have f1 : Symbol.all.filter (fun y => y.text.head? == some '&') = [.ampersand, .ampersandEqual] := by decide +kernel
  have f2 : Symbol.all.filter (fun y => y.text.head? == some '|') = [.pipeEqual, .pipe] := by decide +kernel
  have f3 : Symbol.all.filter (fun y => y.text.head? == some '?') = [.questionMarkDot, .questionMark] := by decide +kernel
  have f4 : Symbol.all.filter (fun y => y.text.head? == some '@') = [.atSign] := by decide +kernel
  have g1 : Symbol.ampersandEqual.gates = [.cfxlua] := rfl
  have g2 : Symbol.pipeEqual.gates = [.cfxlua] := rfl
  have g3 : Symbol.questionMarkDot.gates = [.cfxlua] := rfl
  have g4 : Symbol.ampersand.gates = [.luau, .lua53] := rfl
  have g5 : Symbol.pipe.gates = [.luau, .lua53] := rfl
  have g6 : Symbol.questionMark.gates = [.luau] := rfl
  have g7 : Symbol.atSign.gates = [.luau] := rfl
  have pre : ∀ {k : Char} {r : List Char}, [k] <+: r ↔ r.head? = some k := by
    intro k r; cases r <;> simp [eq_comm]
  have cur : (Src.mk r p).current = r.head? := by cases r <;> rfl
  unfold readOther
  rw [cur]
  split
  · rename_i h
    obtain ⟨rfl, hx, hr⟩ := h
    cases r with
    | nil => cases hr
    | cons x r =>
      cases hr
      exact sym_iff (found (symOk_mk .ampersandEqual rfl rfl (by rw [g1, Cfg.hasAny_one]; exact hx) (by simp [extsTable]) trivial))
  rename_i n1
  split
  · rename_i h
    obtain ⟨rfl, hx, hr⟩ := h
    cases r with
    | nil => cases hr
    | cons x r =>
      cases hr
      exact sym_iff (found (symOk_mk .pipeEqual rfl rfl (by rw [g2, Cfg.hasAny_one]; exact hx) (by simp [extsTable]) trivial))
  rename_i n2
  split
  · rename_i h
    obtain ⟨rfl, hx, hr⟩ := h
    cases r with
    | nil => cases hr
    | cons x r =>
      cases hr
      exact sym_iff (found (symOk_mk .questionMarkDot rfl rfl (by rw [g3, Cfg.hasAny_one]; exact hx) (by simp [extsTable]) trivial))
  rename_i n3
  split
  · rename_i h
    obtain ⟨rfl, hx⟩ := h
    refine sym_iff (found (symOk_mk .ampersand rfl rfl (by rw [g4, Cfg.hasAny_two, Bool.or_eq_true]; exact hx.symm) ?_ trivial))
    simp only [extsTable, List.mem_singleton]
    rintro z rfl hz hp
    rw [g1, Cfg.hasAny_one] at hz
    exact n1 ⟨rfl, hz, pre.1 hp⟩
  rename_i n4
  split
  · rename_i h
    obtain ⟨rfl, hx⟩ := h
    refine sym_iff (found (symOk_mk .pipe rfl rfl (by rw [g5, Cfg.hasAny_two, Bool.or_eq_true]; exact hx.symm) ?_ trivial))
    simp only [extsTable, List.mem_singleton]
    rintro z rfl hz hp
    rw [g2, Cfg.hasAny_one] at hz
    exact n2 ⟨rfl, hz, pre.1 hp⟩
  rename_i n5
  split
  · rename_i h
    obtain ⟨rfl, hx⟩ := h
    refine sym_iff (found (symOk_mk .questionMark rfl rfl (by rw [g6, Cfg.hasAny_one]; exact hx) ?_ trivial))
    simp only [extsTable, List.mem_singleton]
    rintro z rfl hz hp
    rw [g3, Cfg.hasAny_one] at hz
    exact n3 ⟨rfl, hz, pre.1 hp⟩
  rename_i n6
  split
  · rename_i h
    obtain ⟨rfl, hx⟩ := h
    exact sym_iff (found (symOk_mk .atSign rfl rfl (by rw [g7, Cfg.hasAny_one]; exact hx) (by simp [extsTable]) trivial))
  rename_i n7
  refine iff_of_false (by simp [out]) (symOk_none ?_)
  intro y hy hg hp
  by_cases e1 : ch = '&'
  · subst e1
    rw [f1] at hy
    simp only [List.mem_cons, List.not_mem_nil, or_false] at hy
    rcases hy.symm with rfl | rfl
    · rw [g1, Cfg.hasAny_one] at hg
      exact n1 ⟨rfl, hg, pre.1 hp⟩
    · rw [g4, Cfg.hasAny_two, Bool.or_eq_true] at hg
      exact n4 ⟨rfl, hg.symm⟩
  by_cases e2 : ch = '|'
  · subst e2
    rw [f2] at hy
    simp only [List.mem_cons, List.not_mem_nil, or_false] at hy
    rcases hy with rfl | rfl
    · rw [g2, Cfg.hasAny_one] at hg
      exact n2 ⟨rfl, hg, pre.1 hp⟩
    · rw [g5, Cfg.hasAny_two, Bool.or_eq_true] at hg
      exact n5 ⟨rfl, hg.symm⟩
  by_cases e3 : ch = '?'
  · subst e3
    rw [f3] at hy
    simp only [List.mem_cons, List.not_mem_nil, or_false] at hy
    rcases hy with rfl | rfl
    · rw [g3, Cfg.hasAny_one] at hg
      exact n3 ⟨rfl, hg, pre.1 hp⟩
    · rw [g6, Cfg.hasAny_one] at hg
      exact n6 ⟨rfl, hg⟩
  by_cases e4 : ch = '@'
  · subst e4
    rw [f4] at hy
    simp only [List.mem_cons, List.not_mem_nil, or_false] at hy
    subst hy
    rw [g7, Cfg.hasAny_one] at hg
    exact n7 ⟨rfl, hg⟩
  have ht := List.all_eq_true.1 others_table y y.mem_all
  have hh : y.text.head? = some ch := by simpa using (List.mem_filter.1 hy).2
  cases hyt : y.text with
  | nil => rw [hyt] at hh; cases hh
  | cons x t =>
    rw [hyt] at hh ht
    cases hh
    have ht : (isWordChar ch || "=~()[]:,+*/%^#<>.-;{}&|?@".toList.contains ch) = true := ht
    rw [hch.1, Bool.false_or, List.contains_iff_mem] at ht
    have hs : "=~()[]:,+*/%^#<>.-;{}&|?@".toList = "=~()[]:,+*/%^#<>.-;{}".toList ++ ['&', '|', '?', '@'] := by decide
    rw [hs, List.mem_append] at ht
    rcases ht with ht | ht
    · exact hch.2 ht
    · simp [e1, e2, e3, e4] at ht

end FM
