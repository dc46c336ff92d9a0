import Verif.Proofs.RespaceFill

/-! Helper lemmas: reading tokens set apart by white space and comments. -/

namespace FM
open Spec

variable {c : Cfg} {p : Position}

/-- The tokenizer reads a token of type `ty` in front of `rest`. -/
def Scans (c : Cfg) (ty : TokenType) (rest : Text) : Prop :=
  ∃ p b bs t l', processNext c ⟨⟨ty.display ++ rest, p⟩, b, bs⟩ = .ok (some (.ok t), l') ∧ t.type = ty ∧ l'.src.rest = rest

/-- A token that is neither trivia, nor Eof, nor part of an interpolated string. -/
def Solid (ty : TokenType) : Prop := ty.isTrivia = false ∧ ty ≠ .eof ∧ (∀ x k, ty ≠ .interpolated x k) ∧ ty.display ≠ []

/-- A text made of tokens and fillers. -/
inductive Chain (c : Cfg) : List TokenType → Text → Prop where
  | nil : Chain c [] []
  | cons {ty tys rest f s} : Solid ty → Scans c ty rest → Follows rest (f ++ s) →
      (ty.display = ['['] → opensLong (f ++ s) = true → opensLong rest = true) → Filler c f → Chain c tys s →
      Chain c (ty :: tys) (ty.display ++ (f ++ s))

/-- No interpolated string is open. -/
def Flat (bs : List BraceType) : Prop := BraceType.interpolatedString ∉ bs

theorem readPlain_blank {ch : Char} (h : IsBlank ch) {st : Position} {s : Src} {t : Token} (ht : (readPlain c st ch s).1 = .ok t) : t.type.isTrivia = true := by
  rcases h with rfl | rfl | rfl | rfl <;> cases ht <;> rfl

theorem Chain.hard {tys : List TokenType} {s : Text} (h : Chain c tys s) : Hard s := by
  cases h with
  | nil => trivial
  | @cons ty tys rest f s hsol hsc _ _ _ _ =>
    obtain ⟨p, b, bs, t, l', e, rfl, _⟩ := hsc
    have hne := hsol.2.2.2
    cases hd : t.type.display with
    | nil => exact absurd hd hne
    | cons ch w =>
      intro hb
      rw [hd, List.cons_append, processNext_plain (by rintro (rfl | rfl | rfl) <;> rcases hb with h | h | h | h <;> cases h)
        (by rintro rfl; rcases hb with h | h | h | h <;> cases h) (by rintro rfl; rcases hb with h | h | h | h <;> cases h)] at e
      simp only [Outcome.ok.injEq, Prod.mk.injEq, Option.some.injEq] at e
      have := readPlain_blank hb e.1
      rw [hsol.1] at this
      cases this

theorem Chain.step {ty : TokenType} {tys : List TokenType} {s : Text} (h : Chain c (ty :: tys) s) (p : Position) (b : Bool) {bs : List BraceType} (hbs : Flat bs) :
    ∃ t f s' p' bs', processNext c ⟨⟨s, p⟩, b, bs⟩ = .ok (some (.ok t), ⟨⟨f ++ s', p'⟩, b, bs'⟩) ∧ t.type = ty ∧ Filler c f ∧ Chain c tys s' ∧ Flat bs' ∧
      ty.isTrivia = false ∧ (f ++ s').length < s.length := by
  cases h with
  | @cons _ _ rest f s hsol hsc hfo hlo hf hch =>
    obtain ⟨p0, b0, bs0, t, l', e, rfl, hr⟩ := hsc
    obtain ⟨t', l'', e1, e2, e3, e4, e5⟩ := processNext_loc hfo hlo (p' := p) (b' := b) hbs e hsol.2.2.2 hr hsol.1 hsol.2.2.1
    refine ⟨t', f, s, l''.src.pos, l''.braces, ?_, e2, hf, hch, e5, hsol.1, ?_⟩
    · rw [e1, ← e3, ← e4]
    · have : 0 < t.type.display.length := List.length_pos_iff.2 hsol.2.2.2
      simp only [List.length_append]
      omega

theorem chain_not_interpolated {tys : List TokenType} {s : Text} (h : Chain c tys s) : ∀ ty ∈ tys, ∀ x k, ty ≠ .interpolated x k := by
  induction h with
  | nil => nofun
  | cons hsol _ _ _ _ _ ih =>
    intro ty hm
    rcases List.mem_cons.1 hm with rfl | hm
    · exact hsol.2.2.1
    · exact ih ty hm

theorem collectTrailing_chain {tys : List TokenType} {s : Text} (hch : Chain c tys s) (fuel : Nat) {f : Text} (hf : Filler c f) (p : Position) (b : Bool)
    {bs : List BraceType} (hbs : Flat bs) (hfu : (f ++ s).length < fuel) :
    ∃ ts f' p' bs', collectTrailing c fuel ⟨⟨f ++ s, p⟩, b, bs⟩ = .ok (ts, ⟨⟨f' ++ s, p'⟩, b, bs'⟩) ∧ Filler c f' ∧ Flat bs' ∧ f'.length ≤ f.length := by
  induction fuel generalizing f p bs with
  | zero => omega
  | succ fuel ih =>
    unfold collectTrailing
    simp only
    by_cases hh : headIs startsTrailing (f ++ s) = true
    · rw [if_pos hh]
      by_cases hne : f = []
      · subst hne
        cases tys with
        | nil =>
          cases hch
          cases hh
        | cons ty tys =>
          obtain ⟨t, g, s', p', bs', e, rfl, hg, hch', hbs', htr, hl⟩ := hch.step p b hbs
          simp only [List.nil_append, e, Outcome.bind, htr, Bool.false_eq_true, if_false]
          exact ⟨_, [], p, bs', rfl, .nil, hbs', Nat.le_refl _⟩
      · obtain ⟨t, f', p', e, htr, hf', hl⟩ := filler_step hch.hard hf hne p b bs
        simp only [e, Outcome.bind, htr, if_true]
        cases t.type.endsLine with
        | true => exact ⟨_, f', p', bs, rfl, hf', hbs, Nat.le_of_lt hl⟩
        | false =>
          obtain ⟨ts, f'', p'', bs'', e', hf'', hbs'', hl'⟩ := ih hf' p' hbs (by simp only [List.length_append] at hfu ⊢; omega)
          simp only [e', Bool.false_eq_true, if_false]
          exact ⟨_, f'', p'', bs'', rfl, hf'', hbs'', by omega⟩
    · rw [if_neg hh]
      exact ⟨[], f, p, bs, rfl, hf, hbs, Nat.le_refl _⟩

theorem leadingLoop_chain {ty : TokenType} {tys : List TokenType} {s : Text} (hch : Chain c (ty :: tys) s) (fuel : Nat) {f : Text} (hf : Filler c f) (p : Position) (lead : List Token)
    {bs : List BraceType} (hbs : Flat bs) (hfu : (f ++ s).length < fuel) :
    ∃ ld t f' s' p' bs', leadingLoop c fuel ⟨⟨f ++ s, p⟩, false, bs⟩ lead none = .ok (.token ld t none, ⟨⟨f' ++ s', p'⟩, false, bs'⟩) ∧ t.type = ty ∧
      Filler c f' ∧ Chain c tys s' ∧ Flat bs' ∧ (f' ++ s').length < (f ++ s).length := by
  induction fuel generalizing f p lead with
  | zero => omega
  | succ fuel ih =>
    unfold leadingLoop
    by_cases hne : f = []
    · subst hne
      obtain ⟨t, g, s', p', bs', e, rfl, hg, hch', hbs', htr, hl⟩ := hch.step p false hbs
      simp only [List.nil_append, e, Outcome.bind, htr, Bool.false_eq_true, if_false]
      exact ⟨_, t, g, s', p', bs', rfl, rfl, hg, hch', hbs', hl⟩
    · obtain ⟨t, f', p', e, htr, hf', hl⟩ := filler_step hch.hard hf hne p false bs
      simp only [e, Outcome.bind, htr, if_true]
      obtain ⟨ld, t', f'', s', p'', bs', e', ht, h1, h2, h3, h4⟩ := ih hf' p' (lead ++ [t]) (by simp only [List.length_append] at hfu ⊢; omega)
      refine ⟨ld, t', f'', s', p'', bs', e', ht, h1, h2, h3, ?_⟩
      simp only [List.length_append] at h4 ⊢
      omega

theorem leadingLoop_eof (fuel : Nat) {f : Text} (hf : Filler c f) (p : Position) (lead : List Token) (bs : List BraceType) (hfu : f.length < fuel) :
    ∃ ld t p', leadingLoop c fuel ⟨⟨f, p⟩, false, bs⟩ lead none = .ok (.token ld t none, ⟨⟨[], p'⟩, true, bs⟩) ∧ t.type = .eof := by
  induction fuel generalizing f p lead with
  | zero => omega
  | succ fuel ih =>
    unfold leadingLoop
    by_cases hne : f = []
    · subst hne
      exact ⟨_, ⟨p, p, .eof⟩, p, rfl, rfl⟩
    · obtain ⟨t, f', p', e, htr, hf', hl⟩ := filler_step (s := []) trivial hf hne p false bs
      simp only [List.append_nil] at e
      simp only [e, Outcome.bind, htr, if_true]
      exact ih hf' p' (lead ++ [t]) (by omega)

theorem processNextWithTrivia_chain {ty : TokenType} {tys : List TokenType} {s : Text} (hch : Chain c (ty :: tys) s) {f : Text} (hf : Filler c f) (p : Position)
    {bs : List BraceType} (hbs : Flat bs) :
    ∃ u f' s' p' bs', processNextWithTrivia c ⟨⟨f ++ s, p⟩, false, bs⟩ = .ok (some (.ok u), ⟨⟨f' ++ s', p'⟩, false, bs'⟩) ∧ u.token.type = ty ∧
      Filler c f' ∧ Chain c tys s' ∧ Flat bs' ∧ (f' ++ s').length < (f ++ s).length := by
  unfold processNextWithTrivia
  obtain ⟨ld, t, f', s', p', bs', e, rfl, h1, h2, h3, h4⟩ := leadingLoop_chain hch ((f ++ s).length + 1) hf p [] hbs (Nat.lt_succ_self _)
  obtain ⟨ts, f'', p'', bs'', e', h1', h3', h4'⟩ := collectTrailing_chain h2 ((f' ++ s').length + 1) h1 p' false h3 (Nat.lt_succ_self _)
  simp only [e, e', Outcome.bind]
  refine ⟨_, f'', s', p'', bs'', rfl, rfl, h1', h2, h3', ?_⟩
  simp only [List.length_append] at h4 ⊢
  omega

theorem processNextWithTrivia_eof {f : Text} (hf : Filler c f) (p : Position) (bs : List BraceType) :
    ∃ u p', processNextWithTrivia c ⟨⟨f, p⟩, false, bs⟩ = .ok (some (.ok u), ⟨⟨[], p'⟩, true, bs⟩) ∧ u.token.type = .eof := by
  unfold processNextWithTrivia
  obtain ⟨ld, t, p', e, ht⟩ := leadingLoop_eof (f.length + 1) hf p [] bs (Nat.lt_succ_self _)
  simp only [e, Outcome.bind]
  exact ⟨_, p', rfl, ht⟩

theorem lexRest_chain (fuel : Nat) {tys : List TokenType} {s : Text} (hch : Chain c tys s) {f : Text} (hf : Filler c f) (p : Position)
    {bs : List BraceType} (hbs : Flat bs) (hfu : (f ++ s).length + 2 ≤ fuel) :
    ∃ us : List TokRef, lexRest c fuel ⟨⟨f ++ s, p⟩, false, bs⟩ = .ok (us.map .ok) ∧ us.map (·.token.type) = tys ++ [.eof] := by
  induction fuel generalizing tys s f p bs with
  | zero => omega
  | succ fuel ih =>
    unfold lexRest
    cases tys with
    | nil =>
      cases hch
      obtain ⟨u, p', e, hu⟩ := processNextWithTrivia_eof hf p bs
      rw [List.append_nil, e]
      simp only [Outcome.bind]
      have : ∃ n, fuel = n + 1 := ⟨fuel - 1, by omega⟩
      obtain ⟨n, rfl⟩ := this
      refine ⟨[u], rfl, by simp [hu]⟩
    | cons ty tys =>
      obtain ⟨u, f', s', p', bs', e, hu, h1, h2, h3, h4⟩ := processNextWithTrivia_chain hch hf p hbs
      obtain ⟨us, e', hus⟩ := ih h2 h1 p' h3 (by omega)
      simp only [e, e', Outcome.bind]
      exact ⟨u :: us, rfl, by simp [hu, hus]⟩

theorem readPlain_bang (st : Position) (s : Src) (t : Token) : (readPlain c st '!' s).1 ≠ .ok t := by
  have : readPlain c st '!' s = readOther c st '!' s := rfl
  rw [this]
  unfold readOther
  simp

theorem chain_noShebang {tys : List TokenType} {s : Text} (hch : Chain c tys s) {f : Text} (hf : Filler c f) : ¬ HasShebang (f ++ s) := by
  intro h
  have bang : ∀ {tys : List TokenType} {s r : Text}, Chain c tys s → s ≠ '!' :: r := by
    rintro tys s r h rfl
    cases tys with
    | nil => cases h
    | cons ty tys =>
      obtain ⟨t, f, s', p', bs', e, _⟩ := h.step Position.initial false (bs := []) (by simp [Flat])
      rw [processNext_plain (by decide) (by decide) (by decide)] at e
      simp only [Outcome.ok.injEq, Prod.mk.injEq, Option.some.injEq] at e
      exact readPlain_bang _ _ _ e.1
  have fillHead : ∀ {f : Text} {ch : Char} {r : Text}, Filler c f → f = ch :: r → ch ≠ '#' ∧ ch ≠ '!' := by
    intro f ch r hf e
    cases hf with
    | nil => cases e
    | blank hb => cases e; rcases hb with rfl | rfl | rfl | rfl <;> decide
    | line => cases e; decide
    | long => cases e; decide
    | cStyle => cases e; decide
  have two : ∃ r, f ++ s = '#' :: '!' :: r := by
    unfold HasShebang at h
    generalize f ++ s = l at h
    match l, h with
    | a :: b :: r, h => simp at h; exact ⟨r, by rw [h.1, h.2]⟩
    | [a], h => simp at h
    | [], h => simp at h
  obtain ⟨r, e⟩ := two
  cases f with
  | cons ch g =>
    simp only [List.cons_append, List.cons.injEq] at e
    exact (fillHead hf rfl).1 e.1
  | nil =>
    rw [List.nil_append] at e
    subst e
    cases tys with
    | nil => cases hch
    | cons ty tys =>
      obtain ⟨t, f, s', p', bs', e, _, hf', hch', _⟩ := hch.step Position.initial false (bs := []) (by simp [Flat])
      rw [processNext_plain (by decide) (by decide) (by decide)] at e
      simp only [Outcome.ok.injEq, Prod.mk.injEq, Option.some.injEq] at e
      have : '!' :: r = f ++ s' := by
        have := congrArg (fun l : Lx => l.src.rest) e.2
        exact this
      cases f with
      | cons ch g =>
        simp only [List.cons_append, List.cons.injEq] at this
        exact (fillHead hf' rfl).2 this.1.symm
      | nil => exact bang hch' this.symm

theorem lexAll_chain {tys : List TokenType} {s : Text} (hch : Chain c tys s) {f : Text} (hf : Filler c f) :
    ∃ us : List TokRef, lexAll c (f ++ s) = .ok (us.map .ok) ∧ us.map (·.token.type) = tys ++ [.eof] := by
  unfold lexAll
  rw [processFirst_noShebang (chain_noShebang hch hf)]
  have hfl : Flat [] := by simp [Flat]
  cases tys with
  | nil =>
    cases hch
    obtain ⟨u, p', e, hu⟩ := processNextWithTrivia_eof hf .initial []
    rw [List.append_nil]
    simp only [Lx.new, Src.new, e, Outcome.bind]
    exact ⟨[u], rfl, by simp [hu]⟩
  | cons ty tys =>
    obtain ⟨u, f', s', p', bs', e, hu, h1, h2, h3, h4⟩ := processNextWithTrivia_chain hch hf .initial hfl
    obtain ⟨us, e', hus⟩ := lexRest_chain ((f ++ s).length + 2) h2 h1 p' h3 (by omega)
    simp only [Lx.new, Src.new, e, e', Outcome.bind]
    exact ⟨u :: us, rfl, by simp [hu, hus]⟩

end FM
