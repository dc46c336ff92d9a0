import Verif.Proofs.LexSlice

/-!
# One source behind another

Tokens of a text that ends with a line break, followed by another text.
-/

namespace FM
open FM.Spec

variable {c : Cfg}

theorem last_append {α : Type} {a b : List α} (hb : b ≠ []) : (a ++ b).getLast? = b.getLast? := by
  rw [List.getLast?_append]
  cases h : b.getLast? with
  | none => exact absurd (List.getLast?_eq_none_iff.1 h) hb
  | some x => rfl

theorem ends_append {a b : Text} (hb : b ≠ []) (h : (a ++ b).getLast? = some '\n') : b.getLast? = some '\n' := by
  rw [last_append hb] at h
  exact h

theorem number_line {t rest : Text} (h : Decimal c t rest ∨ Hexadecimal c t rest ∨ Binary c t rest) : '\n' ∉ t := by
  have mant : ∀ {p : Char → Bool} {b : Bool} {t : Text}, p '\n' = false → Mantissa p b t → '\n' ∉ t := by
    intro p b t hp h hm
    rcases h.1 _ hm with h | h
    · rw [hp] at h; cases h
    · cases h
  have dig : digitOr_ c '\n' = false := by simp [digitOr_]
  have hex : hexOr_ c '\n' = false := by simp [hexOr_]
  have expo : ∀ {marks : List Char} {t : Text}, '\n' ∉ marks → Exponent c marks t → '\n' ∉ t := by
    rintro marks t hm ⟨m, sign, d, ds, rfl, h1, h2, h3, h4⟩ h
    rcases List.mem_cons.1 h with rfl | h
    · exact hm h1
    · rcases List.mem_append.1 h with h | h
      · simp only [List.mem_cons, List.not_mem_nil, or_false] at h2
        rcases h2 with rfl | rfl | rfl <;> simp at h
      · rcases List.mem_cons.1 h with rfl | h
        · exact absurd h3.1 (by decide)
        · have := h4 _ h
          rw [dig] at this
          cases this
  have suf : ∀ {t : Text}, IntSuffix c t → '\n' ∉ t := by
    rintro t ⟨-, u, v, w, i, hu, hv, hw, hi, ht⟩ h
    simp only [List.mem_cons, List.not_mem_nil, or_false] at ht
    rcases ht with rfl | rfl | rfl <;> simp only [List.mem_cons, List.not_mem_nil, or_false] at h <;>
      rcases hu with rfl | rfl <;> rcases hv with rfl | rfl <;> rcases hw with rfl | rfl <;> rcases hi with rfl | rfl <;> revert h <;> decide
  rcases h with ⟨first, body, tail, rfl, hf, hm, ht⟩ | ⟨x, body, tail, rfl, hx, hm, ht⟩ | ⟨-, b, body, tail, rfl, hb, hm, ht⟩
  · intro h
    rcases List.mem_cons.1 h with rfl | h
    · rcases hf with hf | hf
      · exact absurd hf.1 (by decide)
      · exact absurd hf.1 (by decide)
    · rcases List.mem_append.1 h with h | h
      · exact mant dig hm h
      · rcases ht with ⟨rfl, -⟩ | ⟨ht, -⟩ | ht
        · cases h
        · exact expo (by decide) ht h
        · exact suf ht h
  · intro h
    rcases List.mem_cons.1 h with h | h
    · cases h
    rcases List.mem_cons.1 h with rfl | h
    · rcases hx with hx | hx <;> cases hx
    · rcases List.mem_append.1 h with h | h
      · exact mant hex hm h
      · rcases ht with ⟨rfl, -⟩ | ⟨-, -, ht, -⟩ | ht
        · cases h
        · exact expo (by decide) ht h
        · exact suf ht h
  · intro h
    rcases List.mem_cons.1 h with h | h
    · cases h
    rcases List.mem_cons.1 h with rfl | h
    · rcases hb with hx | hx <;> cases hx
    · rcases List.mem_append.1 h with h | h
      · have := hm _ h
        revert this
        decide
      · rcases ht with ⟨rfl, -⟩ | ht
        · cases h
        · exact suf ht h

theorem last_of_mem {t : Text} {ch : Char} (h : t.getLast? = some ch) : ch ∈ t := List.mem_of_getLast? h

/-- Only white space ends with a line break. -/
theorem lexeme_newline {bs bs' : List BraceType} {ty : TokenType} {rest : Text} (h : Lexeme c bs ty rest bs') (he : ty.display.getLast? = some '\n') :
    ∃ w, ty = .whitespace w := by
  have app : ∀ {a : Text} {ch : Char}, (a ++ [ch]).getLast? = some '\n' → ch ≠ '\n' → False := by
    intro a ch h hn
    rw [last_append (by simp)] at h
    simp at h
    exact hn h
  cases ty with
  | eof => exact h.elim
  | shebang _ => exact h.elim
  | whitespace w => exact ⟨w, rfl⟩
  | identifier t =>
    have h1 := last_of_mem he
    have h2 := h.1
    match t, h2 with
    | x :: t, h2 =>
      rcases List.mem_cons.1 h1 with rfl | h1
      · exact absurd h2.1 (by decide)
      · exact absurd (h2.2.2 _ h1) (by decide)
  | symbol y =>
    have : y.text.getLast? ≠ some '\n' := by cases y <;> decide
    exact absurd he this
  | number t => exact absurd (last_of_mem he) (number_line h.1)
  | singleLineComment t =>
    have h1 := last_of_mem he
    rcases List.mem_append.1 h1 with h1 | h1
    · exact absurd h1 (by decide)
    · exact absurd h1 h.1
  | multiLineComment n body => exact (app he (by decide)).elim
  | cStyleComment t =>
    rw [TokenType.display, last_append (by simp)] at he
    cases he
  | stringLiteral body n q =>
    unfold TokenType.display at he
    cases q <;> simp only [reduceCtorEq, if_false, if_true] at he <;> exact (app he (by decide)).elim
  | interpolated body k => cases k <;> exact (app he (by decide)).elim

theorem opensLong_more {rest more : Text} (h : rest.getLast? = some '\n') (ho : opensLong (rest ++ more) = true) : opensLong rest = true := by
  induction rest with
  | nil => cases h
  | cons ch r ih =>
    simp only [List.cons_append, opensLong] at ho ⊢
    by_cases hc : ch = '='
    · rw [if_pos hc] at ho ⊢
      cases r with
      | nil =>
        subst hc
        cases h
      | cons x r => exact ih (by rwa [List.getLast?_cons_cons] at h) ho
    · rw [if_neg hc] at ho ⊢
      exact ho

/-- A token in a text that ends with a line break is one when more text follows. -/
theorem lexeme_more (hc : c.Good) {bs bs' : List BraceType} {ty : TokenType} {rest : Text} (h : Lexeme c bs ty rest bs')
    (he : (ty.display ++ rest).getLast? = some '\n') (more : Text) : Lexeme c bs ty (rest ++ more) bs' := by
  by_cases hr : rest = []
  · subst hr
    obtain ⟨w, rfl⟩ := lexeme_newline h (by simpa using he)
    rw [List.append_nil] at he
    refine ⟨?_, h.2⟩
    rcases h.1 with h1 | ⟨first, mid, last, h1, h2, h3, h4⟩
    · exact .inl h1
    · refine .inr ⟨first, mid, last, h1, h2, h3, ?_⟩
      rcases h4 with h4 | h4 | ⟨rfl, -⟩
      · exact .inl h4
      · exact .inr (.inl h4)
      · exfalso
        have : '\n' ∈ w := last_of_mem he
        rw [h1, List.append_nil] at this
        rcases List.mem_cons.1 this with rfl | this
        · revert h2; decide
        · have := h3 _ this
          revert this; decide
  · have hrest := ends_append hr he
    obtain ⟨x, r, rfl⟩ : ∃ x r, rest = x :: r := by
      cases rest with
      | nil => exact absurd rfl hr
      | cons x r => exact ⟨x, r, rfl⟩
    by_cases ht : ty.isTrivia = true
    · cases ty with
      | whitespace w =>
        refine ⟨?_, h.2⟩
        rcases h.1 with h1 | ⟨first, mid, last, h1, h2, h3, h4⟩
        · exact .inl h1
        · refine .inr ⟨first, mid, last, h1, h2, h3, ?_⟩
          rcases h4 with h4 | h4 | ⟨rfl, h5, h6⟩
          · exact .inl h4
          · exact .inr (.inl h4)
          · refine .inr (.inr ⟨rfl, h5, ?_⟩)
            cases r with
            | nil =>
              intro e
              simp at hrest
              subst hrest
              simp at e
            | cons y r => simpa using h6
      | singleLineComment t =>
        obtain ⟨h1, h2, h3, h4⟩ := h
        exact ⟨h1, h2, .inr (by simpa using h3), h4⟩
      | multiLineComment _ _ => exact h
      | cStyleComment _ => exact h
      | shebang _ => exact h.elim
      | _ => cases ht
    · exact lexeme_loc hc (by simpa using ht) h ⟨.inl rfl⟩ (fun _ => opensLong_more hrest) fun _ h => .inr (by simpa using h)

/-- The tokens of a text that ends with a line break, followed by those of another one. -/
theorem lexes_append (hc : c.Good) {bs : List BraceType} {s : Text} {tys : List TokenType} (h : Lexes c bs s tys) : (s = [] ∨ s.getLast? = some '\n') →
    ∃ ta bs', tys = ta ++ [.eof] ∧ (c.has .luau = true → runTypes ta bs = some bs') ∧ (ta = [] ∨ ∃ ty, ta.getLast? = some ty ∧ EndsLine ty) ∧
      ∀ {s' : Text} {tys' : List TokenType}, Lexes c bs' s' tys' → Lexes c bs (s ++ s') (ta ++ tys') := by
  induction h with
  | @eof bs => exact fun _ => ⟨[], bs, rfl, fun _ => rfl, .inl rfl, fun h => h⟩
  | @token bs b1 ty rest tys h1 h2 ih =>
    intro he
    have he : (ty.display ++ rest).getLast? = some '\n' := he.resolve_left (by simp [lexeme_ne h1])
    obtain ⟨ta, bs', rfl, g1, g2, g3⟩ := ih (by
      by_cases hr : rest = []
      · exact .inl hr
      · exact .inr (ends_append hr he))
    refine ⟨ty :: ta, bs', rfl, fun hl => ?_, .inr ?_, fun {s' tys'} h => ?_⟩
    · rw [runTypes, lexeme_step_braces hl h1]
      exact g1 hl
    · rcases g2 with rfl | ⟨x, g2, g4⟩
      · refine ⟨ty, rfl, ?_⟩
        have : rest = [] := by
          cases h2 with
          | eof => rfl
          | token _ h => cases h
        subst this
        rw [List.append_nil] at he
        obtain ⟨w, rfl⟩ := lexeme_newline h1 he
        exact ⟨w, rfl, last_of_mem he⟩
      · refine ⟨x, ?_, g4⟩
        cases ta with
        | nil => cases g2
        | cons y ta => rwa [List.getLast?_cons_cons]
    · rw [List.append_assoc]
      exact .token (lexeme_more hc h1 he _) (g3 h)

/-- A text is made of the same tokens behind another one. -/
theorem lexes_behind {us : List TokRef} (hs : ∀ u ∈ us, Sorted u) (ha : Above us) {bs : List BraceType} {s : Text} {lead : List TokenType} (hlead : ∀ x ∈ lead, x.isTrivia = true)
    (h : Lexes c [] s ((us.flatMap TokRef.flat).map Token.type ++ lead ++ [.eof])) : Lexes c bs s ((us.flatMap TokRef.flat).map Token.type ++ lead ++ [.eof]) := by
  have hrun : c.has .luau = true → runTypes ((us.flatMap TokRef.flat).map Token.type ++ lead) bs ≠ none := by
    intro hl
    obtain ⟨b1, r1, -, -, h1⟩ := lexes_drop (ta := (us.flatMap TokRef.flat).map Token.type) (tys := lead ++ [.eof]) (by simp) (by simpa using h)
    have h1 := h1 hl
    rw [runTypes_refs hs] at h1
    obtain ⟨j, -, h2⟩ := ha _ _ h1
    rw [runTypes_append, runTypes_refs hs, h2]
    simp [runTypes_trivia hlead]
  have h2 := lexes_take (base := bs) (tys := [.eof]) (by simp) h hrun
  obtain ⟨b1, r1, e1, h3, -⟩ := lexes_drop (tys := [.eof]) (by simp) h
  cases h3 with
  | eof =>
    rw [List.append_nil] at e1
    rw [e1]
    exact h2
  | token _ h => cases h

/-- The trivia behind a token is the same if something other than the end of the file follows, provided the line ends before. -/
theorem restOfLine_more {e : Token} (he : ¬ Trails e.type) : ∀ {tr l : List Token}, restOfLine (tr ++ (l ++ [e])) = (tr, l ++ [e]) →
    (∃ x, (tr ++ l).getLast? = some x ∧ EndsLine x.type) → ∀ more, restOfLine (tr ++ (l ++ more)) = (tr, l ++ more)
  | [], [], _, ⟨x, hx, _⟩, _ => by cases hx
  | [], t :: l, h, _, more => by
    simp only [List.nil_append, List.cons_append, restOfLine] at h ⊢
    split at h
    · split at h <;> cases h
    · rename_i ht
      rw [if_neg ht]
  | t :: tr, l, h, ⟨x, hx, hl⟩, more => by
    simp only [List.cons_append, restOfLine] at h ⊢
    split at h
    · rename_i ht
      rw [if_pos ht]
      split at h
      · rename_i hel
        rw [if_pos hel]
        simp only [Prod.mk.injEq, List.cons.injEq, true_and] at h
        rw [← h.1]
        rfl
      · rename_i hel
        rw [if_neg hel]
        simp only [Prod.mk.injEq, List.cons.injEq, true_and] at h
        have := restOfLine_more he (tr := tr) (l := l) (Prod.ext h.1 h.2) ⟨x, ?_, hl⟩ more
        · rw [this]
        · cases hq : tr ++ l with
          | nil =>
            simp only [List.append_eq_nil_iff] at hq
            obtain ⟨rfl, rfl⟩ := hq
            simp at hx
            subst hx
            exact absurd hl hel
          | cons y q =>
            rw [List.cons_append, hq, List.getLast?_cons_cons] at hx
            exact hx
    · cases h

theorem restOfLine_last {e : Token} (he : ¬ Trails e.type) : ∀ r : List Token, ∃ tr l, restOfLine (r ++ [e]) = (tr, l ++ [e]) ∧ r = tr ++ l
  | [] => ⟨[], [], by simp [restOfLine, he], rfl⟩
  | t :: r => by
    by_cases ht : Trails t.type
    · by_cases hl : EndsLine t.type
      · exact ⟨[t], r, by simp [restOfLine, ht, hl], rfl⟩
      · obtain ⟨tr, l, h1, rfl⟩ := restOfLine_last he r
        exact ⟨t :: tr, l, by simp only [List.cons_append, restOfLine, ht, hl, if_true, if_false, h1], rfl⟩
    · exact ⟨[], t :: r, by simp [restOfLine, ht], rfl⟩

/-- The token references of a text that ends with a line break, followed by those of another one. -/
theorem attaches_append {e : Token} (he : e.type = .eof) {ts : List Token} {us : List TokRef} (h : Attaches ts us) : ∀ {ts₀ : List Token}, ts = ts₀ ++ [e] →
    (ts₀ = [] ∨ ∃ x, ts₀.getLast? = some x ∧ EndsLine x.type) → ∃ us₀ l, us = us₀ ++ [⟨l, e, []⟩] ∧
      ∀ {ts' : List Token} {u : TokRef} {us' : List TokRef}, Attaches ts' (u :: us') → Attaches (ts₀ ++ ts') (us₀ ++ ⟨l ++ u.leading, u.token, u.trailing⟩ :: us') := by
  have hnt : ¬ Trails e.type := by rw [he]; exact id
  induction h with
  | nil => intro ts₀ h; simp at h
  | @cons leading token rest refs h1 h2 h3 ih =>
    intro ts₀ hts hl
    rcases List.eq_nil_or_concat rest with rfl | ⟨r₀, e', rfl⟩
    · obtain ⟨rfl, h4⟩ := List.append_inj' hts rfl
      simp only [List.cons.injEq, and_true] at h4
      subst h4
      obtain rfl := attaches_none h3 rfl
      refine ⟨[], leading, rfl, fun {ts' u us'} h => ?_⟩
      cases h with
      | @cons lB tB rB _ g1 g2 g3 =>
        have := Attaches.cons (leading := leading ++ lB) (fun x hx => (List.mem_append.1 hx).elim (h1 x) (g1 x)) g2 g3
        simpa using this
    · have hts : leading ++ token :: r₀ = ts₀ ∧ [e'] = [e] := List.append_inj' (by simpa using hts) rfl
      obtain ⟨rfl, h4⟩ := hts
      simp only [List.cons.injEq, and_true] at h4
      subst h4
      obtain ⟨tr, l, h5, rfl⟩ := restOfLine_last hnt r₀
      have hlast : (∃ x, (tr ++ l).getLast? = some x ∧ EndsLine x.type) := by
        obtain ⟨x, h6, h7⟩ := hl.resolve_left (by simp)
        rw [last_append (by simp)] at h6
        cases hq : tr ++ l with
        | nil =>
          rw [hq] at h6
          simp at h6
          subst h6
          obtain ⟨w, h8, -⟩ := h7
          rw [h8] at h2
          cases h2
        | cons y q =>
          rw [hq, List.getLast?_cons_cons] at h6
          exact ⟨x, h6, h7⟩
      have h3' := h3
      rw [List.concat_eq_append] at ih h3 ⊢
      rw [h5] at ih h3 ⊢
      obtain ⟨us₀, l', h6, h7⟩ := ih (ts₀ := l) rfl (by
        cases l with
        | nil => exact .inl rfl
        | cons y l =>
          obtain ⟨x, h8, h9⟩ := hlast
          rw [last_append (by simp)] at h8
          exact .inr ⟨x, h8, h9⟩)
      refine ⟨⟨leading, token, tr⟩ :: us₀, l', by rw [h6]; rfl, fun {ts' u us'} h => ?_⟩
      have h8 := h7 h
      have h9 := restOfLine_more hnt (tr := tr) (l := l) (by rw [← List.append_assoc]; exact h5) hlast ts'
      have h10 := Attaches.cons (leading := leading) (token := token) (rest := tr ++ (l ++ ts')) h1 h2 (by rw [h9]; exact h8)
      rw [h9] at h10
      simpa using h10

end FM
