import Verif.Proofs.Attach
import Verif.Proofs.RespaceOrig
import Verif.Spec.Layout
import Verif.Spec.Formatting

/-! Helper lemmas for C46 and C47: tokens written down with other white space, interpolated strings included. -/

namespace FM
open Spec

variable {c : Cfg}

/-! ### Steps and lexemes -/

theorem lexeme_step (hc : c.Good) {bs bs' : List BraceType} {ty : TokenType} {rest : Text} (h : Lexeme c bs ty rest bs') (p : Position) (b : Bool) :
    ∃ t l1, processNext c ⟨⟨ty.display ++ rest, p⟩, b, bs⟩ = .ok (some (.ok t), l1) ∧ t.type = ty ∧ l1.src.rest = rest ∧ l1.braces = bs' := by
  have key := (step_iff hc (l := ⟨⟨ty.display ++ rest, p⟩, b, bs⟩) (ty := ty) (rest := rest) (bs' := bs')
    (List.append_ne_nil_of_left_ne_nil (lexeme_ne h) _)).2 ⟨rfl, h⟩
  unfold stepOut at key
  split at key
  · rename_i t l1 e
    cases key
    exact ⟨t, l1, e, rfl, rfl, rfl⟩
  · cases key

theorem step_lexeme (hc : c.Good) {l l1 : Lx} {t : Token} (hne : l.src.rest ≠ []) (h : processNext c l = .ok (some (.ok t), l1)) :
    l.src.rest = t.type.display ++ l1.src.rest ∧ Lexeme c l.braces t.type l1.src.rest l1.braces := by
  rcases step_ok hc h with ⟨h1, -⟩ | ⟨-, -, h1, h2⟩
  · exact absurd h1 hne
  · exact ⟨h1, h2⟩

theorem lexeme_hard (hc : c.Good) {bs bs' : List BraceType} {ty : TokenType} {rest : Text} (h : Lexeme c bs ty rest bs') (ht : ty.isTrivia = false) :
    Hard (ty.display ++ rest) := by
  obtain ⟨t, l1, e, rfl, -, -⟩ := lexeme_step hc h .initial false
  cases hd : t.type.display with
  | nil => exact absurd hd (lexeme_ne h)
  | cons ch w =>
    intro hb
    rw [hd, List.cons_append, processNext_plain (by rintro (rfl | rfl | rfl) <;> rcases hb with h | h | h | h <;> cases h)
      (by rintro rfl; rcases hb with h | h | h | h <;> cases h) (by rintro rfl; rcases hb with h | h | h | h <;> cases h)] at e
    simp only [Outcome.ok.injEq, Prod.mk.injEq, Option.some.injEq] at e
    have := readPlain_blank hb e.1
    rw [ht] at this
    cases this

theorem written_hard (hc : c.Good) {bs : List BraceType} {ts : List TokRef} {s : Text} (h : Written c bs ts s) : Hard s := by
  cases h with
  | nil => trivial
  | cons h1 h2 _ _ _ => exact lexeme_hard hc h2 h1

/-! ### White space and comments -/

theorem gap_trailing {f s : Text} (h : Gap c f) : headIs startsTrailing (f ++ s) = true := by
  cases f with
  | nil => cases h.2
  | cons ch f =>
    have := h.2
    simp only [startsWith, Bool.or_eq_true, beq_iff_eq] at this
    rcases this with ((rfl | rfl) | rfl) | rfl <;> rfl

theorem filler_lexes (hc : c.Good) {s : Text} {bs : List BraceType} {tys : List TokenType} (hs : Hard s) (h : Lexes c bs s tys) :
    ∀ {n : Nat} {f : Text}, f.length ≤ n → Filler c f → ∃ fs, Lexes c bs (f ++ s) (fs ++ tys) ∧ (∀ x ∈ fs, x.isTrivia = true) ∧ (f = [] → fs = []) ∧
      (Gap c f → ∃ x, fs.head? = some x ∧ Trails x) := by
  intro n
  induction n with
  | zero =>
    intro f hn _
    have := List.length_eq_zero_iff.1 (Nat.le_zero.1 hn)
    subst this
    exact ⟨[], h, by simp, fun _ => rfl, fun g => by cases g.2⟩
  | succ n ih =>
    intro f hn hf
    by_cases hne : f = []
    · subst hne
      exact ⟨[], h, by simp, fun _ => rfl, fun g => by cases g.2⟩
    obtain ⟨t, f', p', e, ht, hf', hlt⟩ := filler_step hs hf hne .initial false bs
    obtain ⟨h1, h2⟩ := step_lexeme hc (by simp [hne]) e
    obtain ⟨fs, h3, h4, -, -⟩ := ih (f := f') (by omega) hf'
    dsimp only at h1 h2
    refine ⟨t.type :: fs, ?_, ?_, fun e => absurd e hne, fun g => ⟨_, rfl, ?_⟩⟩
    · rw [h1]
      exact .token h2 h3
    · intro x hx
      rcases List.mem_cons.1 hx with rfl | hx
      · exact ht
      · exact h4 x hx
    · refine (trails_iff h2 ht).1 ?_
      rw [← h1]
      exact gap_trailing g

/-! ### The types of the tokens and trivia of a written text -/

/-- The types of tokens, with those of trivia behind each. -/
inductive Woven : List TokRef → List TokenType → Prop where
  | nil : Woven [] [.eof]
  | cons {t ts fs tys} : t.token.type.isTrivia = false → (∀ x ∈ fs, x.isTrivia = true) → (fs ≠ [] → ∃ x, fs.head? = some x ∧ Trails x) →
      (Interpolated t.token.type → (t.trailing = [] ↔ fs = [])) → Woven ts tys → Woven (t :: ts) (t.token.type :: (fs ++ tys))

theorem written_lexes (hc : c.Good) {bs : List BraceType} {ts : List TokRef} {s : Text} (h : Written c bs ts s) : ∃ tys, Lexes c bs s tys ∧ Woven ts tys := by
  induction h with
  | nil => exact ⟨_, .eof, .nil⟩
  | @cons bs bs' t ts f s h1 h2 h3 h4 h5 ih =>
    obtain ⟨tys, i1, i2⟩ := ih
    have hf : Filler c f := by
      rcases h3 with rfl | h3
      · exact .nil
      · exact h3.1
    obtain ⟨fs, k1, k2, k3, k4⟩ := filler_lexes hc (written_hard hc h5) i1 (Nat.le_refl _) hf
    refine ⟨t.token.type :: (fs ++ tys), .token h2 k1, .cons h1 k2 ?_ ?_ i2⟩
    · intro hne
      rcases h3 with rfl | h3
      · exact absurd (k3 rfl) hne
      · exact k4 h3
    · intro hi
      rw [h4 hi]
      refine ⟨k3, fun e => ?_⟩
      rcases h3 with h3 | h3
      · exact h3
      · obtain ⟨x, hx, -⟩ := k4 h3
        rw [e] at hx
        cases hx

theorem Woven.head {ts : List TokRef} {tys : List TokenType} (h : Woven ts tys) : ∃ ty r, tys = ty :: r ∧ ty.isTrivia = false := by
  cases h with
  | nil => exact ⟨_, _, rfl, rfl⟩
  | cons h _ _ _ _ => exact ⟨_, _, rfl, h⟩

/-- Trivia up to the first token. -/
theorem split_trivia : ∀ {a b : List TokenType} {x y : TokenType} {r s : List TokenType}, (∀ z ∈ a, z.isTrivia = true) → (∀ z ∈ b, z.isTrivia = true) →
    x.isTrivia = false → y.isTrivia = false → a ++ x :: r = b ++ y :: s → a = b ∧ x = y ∧ r = s
  | [], [], x, y, r, s, _, _, _, _, h => by cases h; exact ⟨rfl, rfl, rfl⟩
  | [], z :: b, x, y, r, s, _, hb, hx, _, h => by
    cases h
    rw [hb _ (.head _)] at hx
    cases hx
  | z :: a, [], x, y, r, s, ha, _, _, hy, h => by
    cases h
    rw [ha _ (.head _)] at hy
    cases hy
  | z :: a, w :: b, x, y, r, s, ha, hb, hx, hy, h => by
    simp only [List.cons_append, List.cons.injEq] at h
    obtain ⟨rfl, h⟩ := h
    obtain ⟨rfl, rfl, rfl⟩ := split_trivia (fun z hz => ha z (.tail _ hz)) (fun z hz => hb z (.tail _ hz)) hx hy h
    exact ⟨rfl, rfl, rfl⟩

theorem restOfLine_append (ts : List Token) : (restOfLine ts).1 ++ (restOfLine ts).2 = ts := by
  induction ts with
  | nil => rfl
  | cons t ts ih =>
    unfold restOfLine
    split
    · split
      · rfl
      · simp [ih]
    · rfl

theorem restOfLine_trivia (ts : List Token) : ∀ x ∈ (restOfLine ts).1, x.type.isTrivia = true := by
  induction ts with
  | nil => simp [restOfLine]
  | cons t ts ih =>
    unfold restOfLine
    split
    · rename_i h
      split
      · simp [trails_trivia h]
      · simpa [trails_trivia h] using ih
    · simp

/-- Trivia, then more: the first part of it ends before the first token. -/
theorem prefix_trivia : ∀ {a fs : List TokenType} {b tys : List TokenType}, (∀ z ∈ a, z.isTrivia = true) → (∃ ty r, tys = ty :: r ∧ ty.isTrivia = false) →
    a ++ b = fs ++ tys → ∃ fs', fs = a ++ fs' ∧ b = fs' ++ tys
  | [], fs, b, tys, _, _, h => ⟨fs, rfl, h⟩
  | z :: a, [], b, tys, ha, ⟨ty, r, e, ht⟩, h => by
    subst e
    cases h
    rw [ha _ (.head _)] at ht
    cases ht
  | z :: a, w :: fs, b, tys, ha, ht, h => by
    simp only [List.cons_append, List.cons.injEq] at h
    obtain ⟨rfl, h⟩ := h
    obtain ⟨fs', rfl, h2⟩ := prefix_trivia (fun z hz => ha z (.tail _ hz)) ht h
    exact ⟨fs', rfl, h2⟩

/-- The end of the file, without positions and trivia. -/
def plainEof : TokRef := ⟨[], ⟨⟨0, 0, 0⟩, ⟨0, 0, 0⟩, .eof⟩, []⟩

theorem plain_eof {e : TokRef} (h : e.token.type = .eof) : plain e = plainEof := by
  simp [plain, h, plainEof, TokenType.kind]

theorem kind_interpolated {ty : TokenType} : (ty.kind == .interpolatedString) = true ↔ Interpolated ty := by
  cases ty <;> simp [TokenType.kind, Interpolated]

theorem plain_eq {t u : TokRef} (h : t.token.type = u.token.type) (hi : Interpolated u.token.type → (t.trailing = [] ↔ u.trailing = [])) : plain t = plain u := by
  unfold plain
  rw [h]
  by_cases hk : Interpolated u.token.type
  · have h1 := kind_interpolated.2 hk
    have h2 : t.trailing.isEmpty = u.trailing.isEmpty := by
      rw [Bool.eq_iff_iff]
      simpa using hi hk
    rw [h2]
  · have h1 : (u.token.type.kind == .interpolatedString) = false := by
      rw [← Bool.not_eq_true]; exact fun h => hk (kind_interpolated.1 h)
    simp [h1]

theorem attaches_none {ts : List Token} {us : List TokRef} (h : Attaches ts us) (e : ts = []) : us = [] := by
  cases h with
  | nil => rfl
  | cons _ _ _ => simp at e

theorem attach_woven {refs : List TokRef} {tys : List TokenType} (hw : Woven refs tys) : ∀ {fs0 : List TokenType} {ts : List Token} {us : List TokRef},
    (∀ x ∈ fs0, x.isTrivia = true) → ts.map Token.type = fs0 ++ tys → Attaches ts us → us.map plain = refs.map plain ++ [plainEof] := by
  induction hw with
  | nil =>
    intro fs0 ts us h0 ht ha
    cases ha with
    | nil => simp at ht
    | @cons leading token rest us h1 h2 h3 =>
      simp only [List.map_append, List.map_cons] at ht
      obtain ⟨-, e2, e3⟩ := split_trivia (by simpa using h1) h0 h2 rfl ht
      cases List.map_eq_nil_iff.1 e3
      have : us = [] := attaches_none h3 rfl
      subst this
      simp only [List.map_cons, List.map_nil, List.nil_append, List.cons.injEq, and_true]
      exact plain_eof e2
  | @cons t refs fs tys g1 g2 g3 g4 _ ih =>
    rename_i hw
    intro fs0 ts us h0 ht ha
    cases ha with
    | nil => simp at ht
    | @cons leading token rest us h1 h2 h3 =>
      simp only [List.map_append, List.map_cons] at ht
      obtain ⟨-, e2, e3⟩ := split_trivia (by simpa using h1) h0 h2 g1 ht
      have hr := restOfLine_append rest
      have hsplit : (restOfLine rest).1.map Token.type ++ (restOfLine rest).2.map Token.type = fs ++ tys := by
        rw [← List.map_append, hr, e3]
      obtain ⟨fs', k1, k2⟩ := prefix_trivia (by simpa using restOfLine_trivia rest) hw.head hsplit
      have hi := ih (fs0 := fs') (fun x hx => g2 x (by rw [k1]; exact List.mem_append_right _ hx)) k2 h3
      have hnil : (restOfLine rest).1 = [] ↔ fs = [] := by
        constructor
        · intro e
          by_cases hf : fs = []
          · exact hf
          obtain ⟨x, hx, htr⟩ := g3 hf
          cases rest with
          | nil =>
            have := congrArg List.length e3
            simp only [List.map_nil, List.length_nil, List.length_append] at this
            exact List.length_eq_zero_iff.1 (by omega)
          | cons y rest =>
            exfalso
            cases fs with
            | nil => exact hf rfl
            | cons z fs =>
              cases hx
              simp only [List.map_cons, List.cons_append, List.cons.injEq] at e3
              rw [← e3.1] at htr
              unfold restOfLine at e
              rw [if_pos htr] at e
              split at e <;> cases e
        · intro e
          rw [e] at k1
          exact List.map_eq_nil_iff.1 (List.append_eq_nil_iff.1 k1.symm).1
      simp only [List.map_cons, List.cons_append, List.cons.injEq]
      exact ⟨plain_eq e2 fun hi => by rw [hnil, ← g4 hi], hi⟩

/-! ### No `#!` -/

theorem lexeme_bang (hc : c.Good) {bs bs' : List BraceType} {ty : TokenType} {rest r : Text} (h : Lexeme c bs ty rest bs') : ty.display ++ rest ≠ '!' :: r := by
  intro he
  obtain ⟨t, l1, e, -, -, -⟩ := lexeme_step hc h .initial false
  rw [he, processNext_plain (by decide) (by decide) (by decide)] at e
  simp only [Outcome.ok.injEq, Prod.mk.injEq, Option.some.injEq] at e
  exact readPlain_bang _ _ _ e.1

theorem written_noShebang (hc : c.Good) {bs : List BraceType} {ts : List TokRef} {s : Text} (h : Written c bs ts s) {f : Text} (hf : Filler c f) :
    ¬ HasShebang (f ++ s) := by
  intro hsh
  have fillHead : ∀ {f : Text} {ch : Char} {r : Text}, Filler c f → f = ch :: r → ch ≠ '#' ∧ ch ≠ '!' := by
    intro f ch r hf e
    cases hf with
    | nil => cases e
    | blank hb => cases e; rcases hb with rfl | rfl | rfl | rfl <;> decide
    | line => cases e; decide
    | long => cases e; decide
    | cStyle => cases e; decide
  have two : ∃ r, f ++ s = '#' :: '!' :: r := by
    unfold HasShebang at hsh
    generalize f ++ s = l at hsh
    match l, hsh with
    | a :: b :: r, h => simp at h; exact ⟨r, by rw [h.1, h.2]⟩
    | [a], h => simp at h
    | [], h => simp at h
  obtain ⟨r, e⟩ := two
  cases f with
  | cons ch g =>
    simp only [List.cons_append, List.cons.injEq] at e
    exact (fillHead hf rfl).1 e.1
  | nil =>
    rw [List.nil_append] at e
    cases h with
    | nil => cases e
    | @cons bs bs' t ts f s h1 h2 h3 h4 h5 =>
      obtain ⟨t', l1, e1, e2, e3, -⟩ := lexeme_step hc h2 .initial false
      have e : t.token.type.display ++ (f ++ s) = '#' :: '!' :: r := e
      rw [e, processNext_plain (by decide) (by decide) (by decide)] at e1
      simp only [Outcome.ok.injEq, Prod.mk.injEq, Option.some.injEq] at e1
      have : '!' :: r = f ++ s := by
        rw [← e3, ← e1.2]
        rfl
      cases f with
      | cons ch g =>
        simp only [List.cons_append, List.cons.injEq] at this
        rcases h3 with h3 | h3
        · cases h3
        · exact (fillHead h3.1 rfl).2 this.1.symm
      | nil =>
        cases h5 with
        | nil => cases this
        | cons _ k2 _ _ _ => exact lexeme_bang hc k2 this.symm

theorem written_file (hc : c.Good) {ts : List TokRef} {f s : Text} (h : Written c [] ts s) (hf : Filler c f) :
    ∃ fs tys, LexesFile c (f ++ s) (fs ++ tys) ∧ (∀ x ∈ fs, x.isTrivia = true) ∧ Woven ts tys := by
  obtain ⟨tys, h1, h2⟩ := written_lexes hc h
  obtain ⟨fs, h3, h4, -, -⟩ := filler_lexes hc (written_hard hc h) h1 (Nat.le_refl _) hf
  exact ⟨fs, tys, .inl ⟨written_noShebang hc h hf, h3⟩, h4, h2⟩

/-! ### What follows a token -/

theorem section_loc {q : Char} {rest rest' : Text} (hk : rest = [] ∨ rest.head? = some '}' → rest' = [] ∨ rest'.head? = some '}') {e z : Bool} {body : Text}
    (h : SectionBody (q :: rest) e z body) : SectionBody (q :: rest') e z body := by
  have hd : ∀ t : Text, (t ++ q :: rest').head? = (t ++ q :: rest).head? := by
    intro t; cases t <;> rfl
  induction h with
  | nil => exact .nil
  | char h1 _ ih => exact .char h1 ih
  | newline h1 _ ih => exact .newline h1 ih
  | backslash h1 _ ih => exact .backslash (by rw [hd]; exact h1) ih
  | skip _ ih => exact .skip ih
  | escaped h1 _ ih => exact .escaped h1 ih
  | u h1 _ ih => exact .u (by rw [hd]; exact h1) ih
  | @unicode z x w t v h1 h2 h3 _ ih =>
    cases t with
    | nil =>
      cases h1
      exact .unicode rfl h2 (hk h3) ih
    | cons y t =>
      cases h1
      refine .unicode (x := x) (v := t ++ q :: rest') rfl h2 ?_ ih
      rw [hd]
      rcases h3 with h3 | h3
      · simp at h3
      · exact .inr h3

/-- A lexeme that is not part of an interpolated string can be found whatever braces are open. -/
theorem lexeme_base {bs bs' : List BraceType} {ty : TokenType} {rest : Text} (hi : ¬ Interpolated ty) (h : Lexeme c bs ty rest bs') : ∃ b, Lexeme c [] ty rest b := by
  cases ty with
  | interpolated x k => exact absurd ⟨x, k, rfl⟩ hi
  | eof => exact h.elim
  | shebang _ => exact h.elim
  | identifier t => exact ⟨[], h.1, h.2.1, h.2.2.1, rfl⟩
  | symbol y =>
    obtain ⟨h1, h2, h3, h4, -⟩ := h
    have : ∃ b, BracesOf c y [] b := by
      unfold BracesOf
      split
      · exact ⟨_, rfl⟩
      · split
        · exact ⟨[], by simp⟩
        · exact ⟨_, rfl⟩
      · exact ⟨_, rfl⟩
    obtain ⟨b, hb⟩ := this
    exact ⟨b, h1, h2, h3, h4, hb⟩
  | number t => exact ⟨[], h.1, rfl⟩
  | whitespace t => exact ⟨[], h.1, rfl⟩
  | singleLineComment t => exact ⟨[], h.1, h.2.1, h.2.2.1, rfl⟩
  | multiLineComment n b => exact ⟨[], h.1, rfl⟩
  | cStyleComment t => exact ⟨[], h.1, h.2.1, rfl⟩
  | stringLiteral body n q =>
    cases q
    · exact ⟨[], h.1, rfl⟩
    · exact ⟨[], h.1, h.2.1, rfl⟩
    · exact ⟨[], h.1, h.2.1, rfl⟩
    · exact ⟨[], h.1, h.2.1, h.2.2.1, h.2.2.2.1, rfl⟩

theorem lexeme_rebase {bs bs' b : List BraceType} {ty : TokenType} {rest rest' : Text} (hi : ¬ Interpolated ty) (h : Lexeme c bs ty rest bs') (h' : Lexeme c [] ty rest' b) :
    Lexeme c bs ty rest' bs' := by
  cases ty with
  | interpolated x k => exact absurd ⟨x, k, rfl⟩ hi
  | eof => exact h.elim
  | shebang _ => exact h.elim
  | identifier t => exact ⟨h'.1, h'.2.1, h'.2.2.1, h.2.2.2⟩
  | symbol y => exact ⟨h'.1, h'.2.1, h'.2.2.1, h'.2.2.2.1, h.2.2.2.2⟩
  | number t => exact ⟨h'.1, h.2⟩
  | whitespace t => exact ⟨h'.1, h.2⟩
  | singleLineComment t => exact ⟨h'.1, h'.2.1, h'.2.2.1, h.2.2.2⟩
  | multiLineComment n b => exact ⟨h'.1, h.2⟩
  | cStyleComment t => exact ⟨h'.1, h'.2.1, h.2.2⟩
  | stringLiteral body n q =>
    cases q
    · exact ⟨h'.1, h.2⟩
    · exact ⟨h'.1, h'.2.1, h.2.2⟩
    · exact ⟨h'.1, h'.2.1, h.2.2⟩
    · exact ⟨h'.1, h'.2.1, h'.2.2.1, h'.2.2.2.1, h.2.2.2.2⟩

/-- What a lexeme needs to know about the text behind it. -/
theorem lexeme_loc (hc : c.Good) {bs bs' : List BraceType} {ty : TokenType} {rest rest' : Text} (ht : ty.isTrivia = false) (h : Lexeme c bs ty rest bs')
    (hf : Follows rest rest') (hl : ty.display = ['['] → opensLong rest' = true → opensLong rest = true)
    (hi : Interpolated ty → rest = [] ∨ rest.head? = some '}' → rest' = [] ∨ rest'.head? = some '}') : Lexeme c bs ty rest' bs' := by
  by_cases hty : Interpolated ty
  · obtain ⟨x, k, rfl⟩ := hty
    have hi' := hi ⟨x, k, rfl⟩
    cases k
    · exact ⟨h.1, section_loc hi' h.2.1, h.2.2⟩
    · exact ⟨h.1, section_loc hi' h.2.1, h.2.2⟩
    · exact ⟨h.1, section_loc hi' h.2.1, h.2.2⟩
    · exact ⟨h.1, section_loc hi' h.2.1, h.2.2⟩
  · obtain ⟨b, hb⟩ := lexeme_base hty h
    obtain ⟨t, l1, e, rfl, h2, -⟩ := lexeme_step hc hb .initial false
    obtain ⟨t', l2, e', h3, h4, -⟩ := processNext_loc hf hl (p' := .initial) (b' := false) (bs' := []) (by simp) e (lexeme_ne h) h2 ht
      (fun x k e => hty ⟨x, k, e⟩)
    obtain ⟨-, h5⟩ := step_lexeme hc (by simp [lexeme_ne h]) e'
    rw [h3, h4] at h5
    exact lexeme_rebase hty h h5

/-! ### Respaced sources -/

theorem lexes_token {bs : List BraceType} {s : Text} {ty : TokenType} {tys : List TokenType} (h : Lexes c bs s (ty :: tys)) (hne : tys ≠ []) :
    ∃ bs' rest, s = ty.display ++ rest ∧ Lexeme c bs ty rest bs' ∧ Lexes c bs' rest tys := by
  cases h with
  | eof => exact absurd rfl hne
  | token h1 h2 => exact ⟨_, _, rfl, h1, h2⟩

theorem lexes_eof {bs : List BraceType} {s : Text} {tys : List TokenType} (h : Lexes c bs s (.eof :: tys)) : s = [] ∧ tys = [] := by
  cases h with
  | eof => exact ⟨rfl, rfl⟩
  | token h1 h2 => exact h1.elim

theorem trivia_braces {bs bs' : List BraceType} {ty : TokenType} {rest : Text} (h : Lexeme c bs ty rest bs') (ht : ty.isTrivia = true) : bs' = bs := by
  cases ty with
  | shebang _ => exact h.elim
  | whitespace t => exact h.2
  | singleLineComment t => exact h.2.2.2
  | multiLineComment n b => exact h.2
  | cStyleComment t => exact h.2.2
  | _ => cases ht

theorem trivia_head {bs bs' : List BraceType} {ty : TokenType} {rest more : Text} (h : Lexeme c bs ty rest bs') (ht : ty.isTrivia = true) :
    ¬ (ty.display ++ more = [] ∨ (ty.display ++ more).head? = some '}') := by
  rintro (e | e)
  · exact lexeme_ne h (List.append_eq_nil_iff.1 e).1
  cases ty with
  | whitespace t =>
    rcases h.1 with rfl | ⟨first, mid, last, rfl, h1, -⟩
    · cases e
    · rcases h1 with rfl | rfl | rfl <;> cases e
  | shebang _ => exact h.elim
  | singleLineComment t => cases e
  | multiLineComment n b => cases e
  | cStyleComment t => cases e
  | _ => cases ht

theorem types_ne {a : List TokenType} {b : List TokenType} (h : b ≠ []) : a ++ b ≠ [] := by simp [h]

/-- Trivia in front. -/
theorem lexes_trivia : ∀ {ts : List Token} {bs : List BraceType} {s : Text} {tys : List TokenType}, (∀ x ∈ ts, x.type.isTrivia = true) → tys ≠ [] →
    Lexes c bs s (ts.map Token.type ++ tys) → ∃ rest, s = text ts ++ rest ∧ Lexes c bs rest tys ∧
      (ts ≠ [] → ¬ (text ts ++ rest = [] ∨ (text ts ++ rest).head? = some '}'))
  | [], bs, s, tys, _, _, h => ⟨s, rfl, h, fun h => absurd rfl h⟩
  | t :: ts, bs, s, tys, ht, hne, h => by
    have h0 := ht t (.head _)
    obtain ⟨bs', rest, rfl, h1, h2⟩ := lexes_token (by simpa using h) (types_ne hne)
    cases trivia_braces h1 h0
    obtain ⟨rest', rfl, h3, -⟩ := lexes_trivia (fun x hx => ht x (.tail _ hx)) hne h2
    have e : text (t :: ts) = t.type.display ++ text ts := by simp [text, Token.display]
    refine ⟨rest', by rw [e, List.append_assoc], h3, fun _ => ?_⟩
    rw [e, List.append_assoc]
    exact trivia_head h1 h0

/-- The tokens of references, but for the trivia in front. -/
def fromRef : List TokRef → List Token
  | [] => []
  | u :: us => u.token :: (u.trailing ++ us.flatMap TokRef.flat)

/-- The tokens and their trivia are tokens and trivia. -/
def Sorted (u : TokRef) : Prop := u.token.type.isTrivia = false ∧ (∀ x ∈ u.leading, x.type.isTrivia = true) ∧ ∀ x ∈ u.trailing, x.type.isTrivia = true

theorem lexes_ref {bs : List BraceType} {s : Text} {t u : TokRef} {us : List TokRef} (ht : Sorted t) (hu : Sorted u)
    (h : Lexes c bs s ((fromRef (t :: u :: us)).map Token.type)) :
    ∃ bs' rest, s = t.token.display ++ (text t.trailing ++ (text u.leading ++ rest)) ∧ Lexeme c bs t.token.type (text t.trailing ++ (text u.leading ++ rest)) bs' ∧
      Lexes c bs' rest ((fromRef (u :: us)).map Token.type) ∧
      (t.trailing ≠ [] → ¬ (text t.trailing ++ (text u.leading ++ rest) = [] ∨ (text t.trailing ++ (text u.leading ++ rest)).head? = some '}')) := by
  have e : (fromRef (t :: u :: us)).map Token.type = t.token.type :: (t.trailing.map Token.type ++ (u.leading.map Token.type ++ (fromRef (u :: us)).map Token.type)) := by
    simp [fromRef, TokRef.flat]
  have hne : (fromRef (u :: us)).map Token.type ≠ [] := by simp [fromRef]
  rw [e] at h
  obtain ⟨bs', rest, rfl, h1, h2⟩ := lexes_token h (types_ne (types_ne hne))
  obtain ⟨rest', rfl, h3, h4⟩ := lexes_trivia ht.2.2 (types_ne hne) h2
  obtain ⟨rest2, rfl, h5, -⟩ := lexes_trivia hu.2.1 hne h3
  exact ⟨bs', rest2, rfl, h1, h5, h4⟩

theorem append_head {a b d : Text} (h : a ≠ []) : (a ++ b).head? = (a ++ d).head? := by
  cases a with
  | nil => exact absurd rfl h
  | cons _ _ => rfl

theorem respaced_written (hc : c.Good) {us : List TokRef} {s : Text} (h : Respaced c us s) : (∀ u ∈ us, Sorted u) → ∀ {bs : List BraceType} {src : Text},
    Lexes c bs src ((fromRef us).map Token.type) →
    ∃ ts e, us = ts ++ [e] ∧ e.token.type = .eof ∧ Written c bs ts s ∧ s.head? = src.head? ∧ (opensLong s = true → opensLong src = true) := by
  induction h with
  | @eof e he =>
    intro _ bs src hl
    simp only [fromRef, List.map_cons, he] at hl
    obtain ⟨rfl, -⟩ := lexes_eof hl
    exact ⟨[], e, rfl, he, .nil, rfl, id⟩
  | @gap t u ts f s hi hg _ ih =>
    intro hs bs src hl
    have ht := hs t (.head _)
    obtain ⟨bs', rest, rfl, h1, h2, h3⟩ := lexes_ref ht (hs u (.tail _ (.head _))) hl
    obtain ⟨ts', e, k1, k2, k3, k4, k5⟩ := ih (fun x hx => hs x (.tail _ hx)) h2
    have hne : t.token.display ≠ [] := lexeme_ne h1
    refine ⟨t :: ts', e, by rw [k1]; rfl, k2, ?_, ?_, ?_⟩
    · rw [List.append_assoc]
      refine .cons ht.1 (lexeme_loc hc ht.1 h1 (follows_gap hg) (fun _ => long_gap hg) fun hi' hr => absurd hr (h3 (hi hi'))) (.inr hg) (fun hi' => ?_) k3
      refine ⟨fun e => absurd e (hi hi'), fun e => ?_⟩
      subst e
      cases hg.2
    · rw [List.append_assoc]
      exact append_head hne
    · rw [List.append_assoc]
      exact opensLong_mono (long_gap hg)
  | @touching t u ts s hl hl' _ ih =>
    intro hs bs src hlx
    have ht := hs t (.head _)
    obtain ⟨bs', rest, rfl, h1, h2, h3⟩ := lexes_ref ht (hs u (.tail _ (.head _))) hlx
    obtain ⟨ts', e, k1, k2, k3, k4, k5⟩ := ih (fun x hx => hs x (.tail _ hx)) h2
    rw [hl, hl'] at h1 ⊢
    simp only [text_nil, List.nil_append] at h1 ⊢
    have hne : t.token.display ≠ [] := lexeme_ne h1
    refine ⟨t :: ts', e, by rw [k1]; rfl, k2, ?_, append_head hne, opensLong_mono k5⟩
    refine .cons (f := []) ht.1 (lexeme_loc hc ht.1 h1 ⟨.inl k4⟩ (fun _ => k5) fun _ hr => ?_) (.inl rfl) (fun _ => ⟨fun _ => rfl, fun _ => hl⟩) k3
    rw [List.nil_append, k4]
    rcases hr with rfl | hr
    · left
      cases s with
      | nil => rfl
      | cons _ _ => cases k4
    · exact .inr hr
  | @last t e hi he =>
    intro hs bs src hlx
    have ht := hs t (.head _)
    obtain ⟨bs', rest, rfl, h1, h2, h3⟩ := lexes_ref ht (hs e (.tail _ (.head _))) hlx
    have hne : t.token.display ≠ [] := lexeme_ne h1
    refine ⟨[t], e, rfl, he, ?_, ?_, ?_⟩
    · have := Written.cons (f := []) (s := []) ht.1 (lexeme_loc hc ht.1 h1 follows_nil (fun _ => nofun) fun _ _ => .inl rfl) (.inl rfl)
        (fun hi' => ⟨fun _ => rfl, fun _ => hi hi'⟩) .nil
      simpa using this
    · have := append_head (b := []) (d := text t.trailing ++ (text e.leading ++ rest)) hne
      simpa using this
    · intro h
      exact opensLong_mono (r' := []) (x := t.token.display) nofun (by simpa using h)

end FM
