import Verif.Proofs.LexicalNumber
import Verif.Proofs.RespaceFill

/-! Helper lemmas for C51: strings, comments, white space and words. -/

namespace FM
open Spec

variable {c : Cfg} {st p : Position} {ty : TokenType} {rest : Text}

/-! ## Quoted strings -/

/-- `StringBody`, in the middle of an escape or not. -/
def StringAt (c : Cfg) (q : Char) (e z : Bool) (t : Text) : Prop :=
  if e then ∃ ch t', t = ch :: t' ∧ StringBody c q (z || c.has .lua52 || c.has .luau || (c.has .luajit && ch == 'z')) t' else StringBody c q z t

theorem stringLoop_out {q : Char} (hq : q ≠ '\\' ∧ q ≠ '\n' ∧ q ≠ '\r') {l : List Char} {lit lit' : Text} {e z : Bool} :
    (∃ s, stringLoop c q l p lit e z = (lit', false, s) ∧ s.rest = rest) ↔
    ∃ body, l = body ++ q :: rest ∧ lit' = lit ++ body ∧ StringAt c q e z body := by
  induction l generalizing p lit e z with
  | nil => simp [stringLoop]
  | cons x l ih =>
    cases e with
    | true =>
      have key : (∃ s, stringLoop c q l (p.advance x) (lit ++ [x]) false (z || c.has .lua52 || c.has .luau || (c.has .luajit && x == 'z')) = (lit', false, s) ∧ s.rest = rest) ↔
          ∃ body, x :: l = body ++ q :: rest ∧ lit' = lit ++ body ∧ StringAt c q true z body := by
        rw [ih]
        constructor
        · rintro ⟨body, rfl, rfl, h⟩
          exact ⟨x :: body, rfl, by simp, x, body, rfl, h⟩
        · rintro ⟨_, he, rfl, ch, t, rfl, h⟩
          cases he
          exact ⟨t, rfl, by simp, h⟩
      rw [← key]
      conv => lhs; unfold stringLoop
      split
      · rename_i h
        simp only [Bool.true_and, Bool.and_eq_true, beq_iff_eq, Bool.or_eq_true] at h
        obtain ⟨rfl, h⟩ := h
        have : (z || c.has .lua52 || c.has .luau || (c.has .luajit && ('z' : Char) == 'z')) = true := by
          rcases h with (h | h) | h <;> simp [show c.has _ = true from h]
        rw [this]
      · rename_i h
        simp only [if_true]
        have : (if c.lua52 || c.luau then true else z) = (z || c.has .lua52 || c.has .luau || (c.has .luajit && x == 'z')) := by
          have h5 : c.lua52 = c.has .lua52 := rfl
          have hu : c.luau = c.has .luau := rfl
          have hj : c.luajit = c.has .luajit := rfl
          rw [h5, hu, hj] at h
          rw [h5, hu]
          revert h
          cases c.has .lua52 <;> cases c.has .luau <;> cases c.has .luajit <;> cases z <;> cases (x == 'z') <;> simp
        rw [this]
    | false =>
      unfold stringLoop
      simp only [Bool.false_and, Bool.false_eq_true, if_false]
      split
      · rename_i h
        subst h
        rw [ih]
        constructor
        · rintro ⟨body, rfl, rfl, ch, t, rfl, h⟩
          exact ⟨'\\' :: ch :: t, rfl, by simp, .escape h⟩
        · rintro ⟨body, he, rfl, h⟩
          cases h with
          | nil => cases he; exact absurd rfl hq.1
          | char _ h => cases he; exact absurd rfl h
          | escape h => cases he; exact ⟨_, rfl, by simp, _, _, rfl, h⟩
          | newline h => cases he; simp at h
      · rename_i h
        split
        · rename_i h1
          simp only [Bool.and_eq_true, Bool.or_eq_true, decide_eq_true_eq] at h1
          obtain ⟨h1, rfl⟩ := h1
          rw [ih]
          constructor
          · rintro ⟨body, rfl, rfl, h2⟩
            exact ⟨x :: body, rfl, by simp, .newline h1 h2⟩
          · rintro ⟨body, he, rfl, h2⟩
            cases h2 with
            | nil => cases he; exact absurd h1 (not_or.2 hq.2)
            | char _ _ g1 g2 => cases he; exact absurd h1 (not_or.2 ⟨g1, g2⟩)
            | escape h => cases he; exact absurd rfl h
            | newline _ h => cases he; exact ⟨_, rfl, by simp, h⟩
        · rename_i h1
          split
          · rename_i h2
            simp only [Bool.or_eq_true, decide_eq_true_eq] at h2
            have hz : z = false := by
              rw [Bool.eq_false_iff]; rintro rfl
              exact h1 (by simpa using h2)
            subst hz
            constructor
            · rintro ⟨s, h, -⟩; cases h
            · rintro ⟨body, he, rfl, h3⟩
              exfalso
              cases h3 with
              | nil => cases he; exact absurd h2 (not_or.2 hq.2)
              | char _ _ g1 g2 => cases he; exact absurd h2 (not_or.2 ⟨g1, g2⟩)
              | escape h => cases he; exact absurd rfl h
          · rename_i h2
            simp only [Bool.or_eq_true, decide_eq_true_eq, not_or] at h2
            split
            · rename_i h3
              subst h3
              constructor
              · rintro ⟨s, h, rfl⟩; cases h; exact ⟨[], rfl, by simp, .nil⟩
              · rintro ⟨body, he, rfl, h3⟩
                cases h3 with
                | nil => cases he; exact ⟨⟨rest, _⟩, by simp; rfl, rfl⟩
                | char h => cases he; exact absurd rfl h
                | escape h => cases he; exact absurd rfl hq.1
                | newline h => cases he; exact absurd h (not_or.2 h2)
            · rename_i h3
              rw [ih]
              constructor
              · rintro ⟨body, rfl, rfl, h4⟩
                exact ⟨x :: body, rfl, by simp, .char h3 h h2.1 h2.2 h4⟩
              · rintro ⟨body, he, rfl, h4⟩
                cases h4 with
                | nil => cases he; exact absurd rfl h3
                | char _ _ _ _ h => cases he; exact ⟨_, rfl, by simp, h⟩
                | escape => cases he; exact absurd rfl h
                | newline h => cases he; exact absurd h (not_or.2 h2)

/-! ## Sections of interpolated strings -/

theorem unicodeLoop_out {l : List Char} {acc : Text} : ∃ w x v s, unicodeLoop l p acc = (acc ++ w, s) ∧ l = w ++ s.rest ∧
    (l ≠ [] → s.rest = x :: v ∧ '}' ∉ (w ++ [x]).tail ∧ (v = [] ∨ v.head? = some '}')) := by
  induction l generalizing p acc with
  | nil => exact ⟨[], 'x', [], _, by simp [unicodeLoop]; rfl, rfl, by simp⟩
  | cons ch l ih =>
    cases l with
    | nil => exact ⟨[], ch, [], _, by simp [unicodeLoop]; rfl, rfl, fun _ => by simp⟩
    | cons ch' r =>
      unfold unicodeLoop
      split
      · rename_i h
        subst h
        exact ⟨[], ch, '}' :: r, _, by simp; rfl, rfl, fun _ => by simp⟩
      · rename_i h
        obtain ⟨w, x, v, s, h1, h2, h3⟩ := ih (p := p.advance ch) (acc := acc ++ [ch])
        obtain ⟨h4, h5, h6⟩ := h3 (by simp)
        refine ⟨ch :: w, x, v, s, by rw [h1]; simp, by simp [h2], fun _ => ⟨h4, ?_, h6⟩⟩
        cases w with
        | nil =>
          rw [h4] at h2
          cases h2
          simpa using Ne.symm h
        | cons y w =>
          cases h2
          simp only [List.cons_append, List.tail_cons, List.mem_cons, not_or] at h5 ⊢
          exact ⟨Ne.symm h, h5⟩

/-- The stretch after `\u{` is determined. -/
theorem unicode_unique {w w' : Text} {x x' : Char} {v v' : Text} (he : w ++ x :: v = w' ++ x' :: v') (h : '}' ∉ (w ++ [x]).tail) (hv : v = [] ∨ v.head? = some '}')
    (h' : '}' ∉ (w' ++ [x']).tail) (hv' : v' = [] ∨ v'.head? = some '}') : w = w' ∧ x :: v = x' :: v' := by
  induction w generalizing w' with
  | nil =>
    cases w' with
    | nil => exact ⟨rfl, he⟩
    | cons y w' =>
      exfalso
      cases he
      cases w' with
      | nil => rcases hv with hv | hv <;> simp at hv; subst hv; simp at h'
      | cons z w' => rcases hv with hv | hv <;> simp at hv; subst hv; simp at h'
  | cons y w ih =>
    cases w' with
    | nil =>
      exfalso
      cases he
      cases w with
      | nil => rcases hv' with hv | hv <;> simp at hv; subst hv; simp at h
      | cons z w' => rcases hv' with hv | hv <;> simp at hv; subst hv; simp at h
    | cons y' w' =>
      simp only [List.cons_append, List.cons.injEq] at he
      obtain ⟨rfl, he⟩ := he
      have h1 : '}' ∉ (w ++ [x]).tail := fun hm => h (by simpa using List.mem_of_mem_tail hm)
      have h2 : '}' ∉ (w' ++ [x']).tail := fun hm => h' (by simpa using List.mem_of_mem_tail hm)
      obtain ⟨rfl, h3⟩ := ih he h1 h2
      exact ⟨rfl, h3⟩

theorem sectionLoop_unicode {fuel : Nat} {r : List Char} {lit : Text} {z : Bool} : sectionLoop (fuel + 1) ('\\' :: 'u' :: '{' :: r) p lit false z =
    sectionLoop fuel (unicodeLoop r (((p.advance '\\').advance 'u').advance '{') (lit ++ ['\\', 'u', '{'])).2.rest
      (unicodeLoop r (((p.advance '\\').advance 'u').advance '{') (lit ++ ['\\', 'u', '{'])).2.pos
      (unicodeLoop r (((p.advance '\\').advance 'u').advance '{') (lit ++ ['\\', 'u', '{'])).1 false z := by
  cases z <;> rfl

theorem sectionLoop_u {fuel : Nat} {r : List Char} {lit : Text} {z : Bool} (h : r.head? ≠ some '{') : sectionLoop (fuel + 1) ('\\' :: 'u' :: r) p lit false z =
    sectionLoop fuel r ((p.advance '\\').advance 'u') (lit ++ ['\\', 'u']) false z := by
  have : (!false && !z && (decide ('\\' = '\n') || decide ('\\' = '\r'))) = false := by cases z <;> rfl
  conv => lhs; unfold sectionLoop
  rw [if_neg (by rw [this]; decide)]
  simp only [Bool.false_and, Bool.false_eq_true, if_false, if_true]
  split
  · simp at h
  · rfl

theorem sectionLoop_backslash {fuel : Nat} {r : List Char} {lit : Text} {z : Bool} (h : r.head? ≠ some 'u') : sectionLoop (fuel + 1) ('\\' :: r) p lit false z =
    sectionLoop fuel r (p.advance '\\') (lit ++ ['\\']) true z := by
  have : (!false && !z && (decide ('\\' = '\n') || decide ('\\' = '\r'))) = false := by cases z <;> rfl
  conv => lhs; unfold sectionLoop
  rw [if_neg (by rw [this]; decide)]
  simp only [Bool.false_and, Bool.false_eq_true, if_false, if_true]
  split
  · simp at h
  · rfl

/-- The character that ends a section. -/
def SectionEnd.char? : SectionEnd → Option Char
  | .brace => some '{'
  | .backtick => some '`'
  | .unclosed => none

theorem sectionLoop_out {k : SectionEnd} {q : Char} (hk : k.char? = some q) {fuel : Nat} {l : List Char} (hf : l.length ≤ fuel) {lit lit' : Text} {e z : Bool} :
    (∃ s, sectionLoop fuel l p lit e z = (lit', k, s) ∧ s.rest = rest) ↔
    ∃ body, l = body ++ q :: rest ∧ lit' = lit ++ body ∧ SectionBody (q :: rest) e z body := by
  have hq : q = '{' ∨ q = '`' := by
    cases k <;> simp [SectionEnd.char?] at hk <;> simp [← hk]
  have hku : k ≠ .unclosed := by rintro rfl; cases hk
  induction fuel generalizing l p lit e z with
  | zero =>
    have : l = [] := by simpa using hf
    subst this
    simp only [sectionLoop, Prod.mk.injEq, Ne.symm hku, false_and, and_false, exists_false, false_iff]
    rintro ⟨body, h, -⟩
    simp at h
  | succ fuel ih =>
    cases l with
    | nil =>
      simp only [sectionLoop, Prod.mk.injEq, Ne.symm hku, false_and, and_false, exists_false, false_iff]
      rintro ⟨body, h, -⟩
      simp at h
    | cons ch r =>
      have hr : r.length ≤ fuel := by simpa using hf
      cases e with
      | true =>
        unfold sectionLoop
        simp only [Bool.not_true, Bool.false_and, Bool.false_eq_true, if_false, Bool.true_and, decide_eq_true_eq, if_true]
        split
        · rename_i h
          subst h
          refine (ih hr).trans ?_
          constructor
          · rintro ⟨body, rfl, rfl, h⟩; exact ⟨'z' :: body, rfl, by simp, .skip h⟩
          · rintro ⟨body, he, rfl, h⟩
            cases h with
            | skip h => cases he; exact ⟨_, rfl, by simp, h⟩
            | escaped h => cases he; exact absurd rfl h
        · rename_i h
          refine (ih hr).trans ?_
          constructor
          · rintro ⟨body, rfl, rfl, h1⟩; exact ⟨ch :: body, rfl, by simp, .escaped h h1⟩
          · rintro ⟨body, he, rfl, h1⟩
            cases h1 with
            | skip h1 => cases he; exact absurd rfl h
            | escaped _ h => cases he; exact ⟨_, rfl, by simp, h⟩
      | false =>
        by_cases hbs : ch = '\\'
        · subst hbs
          have hbq : ('\\' : Char) ≠ q := by rintro rfl; simp at hq
          by_cases hu : r.head? = some 'u'
          · obtain ⟨r', rfl⟩ : ∃ r', r = 'u' :: r' := by
              cases r with
              | nil => cases hu
              | cons y r' => cases hu; exact ⟨r', rfl⟩
            have hr' : r'.length ≤ fuel := by simp at hr; omega
            by_cases hy : r'.head? = some '{'
            · obtain ⟨r'', rfl⟩ : ∃ r'', r' = '{' :: r'' := by
                cases r' with
                | nil => cases hy
                | cons y r' => cases hy; exact ⟨r', rfl⟩
              rw [sectionLoop_unicode]
              obtain ⟨w, x, v, s, h1, h2, h3⟩ := unicodeLoop_out (l := r'') (p := (((p.advance '\\').advance 'u').advance '{')) (acc := lit ++ ['\\', 'u', '{'])
              rw [h1]
              have hr'' : s.rest.length ≤ fuel := by
                have := congrArg List.length h2
                simp at this hr'
                omega
              refine (ih hr'').trans ?_
              constructor
              · rintro ⟨body, he, rfl, h⟩
                have hne : r'' ≠ [] := by rw [h2, he]; simp
                obtain ⟨h4, h5, h6⟩ := h3 hne
                exact ⟨'\\' :: 'u' :: '{' :: (w ++ body), by rw [h2, he]; simp, by simp, .unicode (he.symm.trans h4) h5 h6 h⟩
              · rintro ⟨body, he, rfl, h⟩
                cases h with
                | nil => cases he; exact absurd rfl hbq
                | char h => simp only [List.cons_append, List.cons.injEq] at he; rw [← he.1] at h; simp at h
                | newline h => simp only [List.cons_append, List.cons.injEq] at he; rw [← he.1] at h; simp at h
                | @backslash _ t g =>
                  simp only [List.cons_append, List.cons.injEq, true_and] at he
                  rw [← he] at g; simp at g
                | @u _ t g =>
                  simp only [List.cons_append, List.cons.injEq, true_and] at he
                  rw [← he] at g; simp at g
                | @unicode _ x' w' t v' g1 g2 g3 g4 =>
                  simp only [List.cons_append, List.cons.injEq, true_and, List.append_assoc] at he
                  rw [g1] at he
                  have hne : r'' ≠ [] := by rw [he]; simp
                  obtain ⟨h4, h5, h6⟩ := h3 hne
                  rw [h2, h4] at he
                  obtain ⟨rfl, h7⟩ := unicode_unique he h5 h6 g2 g3
                  exact ⟨t, by rw [h4, h7, g1], by simp, g4⟩
            · rw [sectionLoop_u hy]
              refine (ih hr').trans ?_
              constructor
              · rintro ⟨body, he, rfl, h⟩
                exact ⟨'\\' :: 'u' :: body, by rw [he]; rfl, by simp, .u (by rw [← he]; exact hy) h⟩
              · rintro ⟨body, he, rfl, h⟩
                cases h with
                | nil => cases he; exact absurd rfl hbq
                | char h => simp only [List.cons_append, List.cons.injEq] at he; rw [← he.1] at h; simp at h
                | newline h => simp only [List.cons_append, List.cons.injEq] at he; rw [← he.1] at h; simp at h
                | @backslash _ t g =>
                  simp only [List.cons_append, List.cons.injEq, true_and] at he
                  rw [← he] at g; simp at g
                | @u _ t g h =>
                  simp only [List.cons_append, List.cons.injEq, true_and] at he
                  exact ⟨t, he, by simp, h⟩
                | @unicode _ x' w' t v' g1 g2 g3 g4 =>
                  simp only [List.cons_append, List.cons.injEq, true_and, List.append_assoc] at he
                  rw [he] at hy; simp at hy
          · rw [sectionLoop_backslash hu]
            refine (ih hr).trans ?_
            constructor
            · rintro ⟨body, he, rfl, h⟩
              exact ⟨'\\' :: body, by rw [he]; rfl, by simp, .backslash (by rw [← he]; exact hu) h⟩
            · rintro ⟨body, he, rfl, h⟩
              cases h with
              | nil => cases he; exact absurd rfl hbq
              | char h => simp only [List.cons_append, List.cons.injEq] at he; rw [← he.1] at h; simp at h
              | newline h => simp only [List.cons_append, List.cons.injEq] at he; rw [← he.1] at h; simp at h
              | @backslash _ t g h =>
                simp only [List.cons_append, List.cons.injEq, true_and] at he
                exact ⟨t, he, by simp, h⟩
              | u =>
                simp only [List.cons_append, List.cons.injEq, true_and] at he
                rw [he] at hu; simp at hu
              | unicode =>
                simp only [List.cons_append, List.cons.injEq, true_and, List.append_assoc] at he
                rw [he] at hu; simp at hu
        unfold sectionLoop
        simp only [Bool.not_false, Bool.true_and, Bool.false_and, Bool.false_eq_true, if_false]
        split
        · rename_i h
          simp only [Bool.and_eq_true, Bool.not_eq_true', Bool.or_eq_true, decide_eq_true_eq] at h
          obtain ⟨rfl, h⟩ := h
          simp only [Prod.mk.injEq, Ne.symm hku, false_and, and_false, exists_false, false_iff]
          rintro ⟨body, he, rfl, h1⟩
          cases h1 with
          | nil => cases he; rcases h with rfl | rfl <;> simp at hq
          | char h1 => cases he; rcases h with rfl | rfl <;> simp at h1
          | backslash => cases he; simp at h
          | u => cases he; simp at h
          | unicode => cases he; simp at h
        · rename_i hnl
          · have hb := hbs
            split
            · rename_i h1
              simp only [Bool.and_eq_true, Bool.or_eq_true, decide_eq_true_eq] at h1
              obtain ⟨h1, rfl⟩ := h1
              refine (ih hr).trans ?_
              constructor
              · rintro ⟨body, rfl, rfl, h⟩; exact ⟨ch :: body, rfl, by simp, .newline h1 h⟩
              · rintro ⟨body, he, rfl, h⟩
                cases h with
                | nil => cases he; rcases h1 with rfl | rfl <;> simp at hq
                | char h => cases he; rcases h1 with rfl | rfl <;> simp at h
                | newline _ h => cases he; exact ⟨_, rfl, by simp, h⟩
                | backslash => cases he; exact absurd rfl hb
                | u => cases he; exact absurd rfl hb
                | unicode => cases he; exact absurd rfl hb
            · rename_i h1
              have hnn : ch ≠ '\n' ∧ ch ≠ '\r' := by
                cases z <;> simp at h1 hnl
                · exact hnl
                · exact h1
              have hkch : ∀ (k' : SectionEnd) (x : Char), k'.char? = some x → (k' = k ↔ x = q) := by
                intro k' x h
                cases k' <;> cases k <;> simp [SectionEnd.char?] at h hk <;> subst h <;> subst hk <;> simp
              have fin : ∀ (k' : SectionEnd), k'.char? = some ch → ch = '{' ∨ ch = '`' →
                  ((∃ s, (lit, k', Src.mk r (p.advance ch)) = (lit', k, s) ∧ s.rest = rest) ↔
                    ∃ body, ch :: r = body ++ q :: rest ∧ lit' = lit ++ body ∧ SectionBody (q :: rest) false z body) := by
                intro k' hk' hch
                constructor
                · rintro ⟨s, h, rfl⟩
                  cases h
                  have := (hkch _ _ hk').1 rfl
                  subst this
                  exact ⟨[], rfl, by simp, .nil⟩
                · rintro ⟨body, he, rfl, h⟩
                  cases h with
                  | nil =>
                    cases he
                    have := (hkch _ _ hk').2 rfl
                    subst this
                    exact ⟨⟨rest, _⟩, by simp; rfl, rfl⟩
                  | char h => cases he; rcases hch with rfl | rfl <;> simp at h
                  | newline h => cases he; exact absurd h (not_or.2 hnn)
                  | backslash => cases he; exact absurd rfl hb
                  | u => cases he; exact absurd rfl hb
                  | unicode => cases he; exact absurd rfl hb
              split
              · rename_i h2
                subst h2
                exact fin .brace rfl (.inl rfl)
              · rename_i h2
                split
                · rename_i h3
                  subst h3
                  exact fin .backtick rfl (.inr rfl)
                · rename_i h3
                  refine (ih hr).trans ?_
                  constructor
                  · rintro ⟨body, rfl, rfl, h⟩
                    exact ⟨ch :: body, rfl, by simp, .char (by simp [hb, hnn, h2, h3]) h⟩
                  · rintro ⟨body, he, rfl, h⟩
                    cases h with
                    | nil => cases he; exact absurd hq (not_or.2 ⟨h2, h3⟩)
                    | char _ h => cases he; exact ⟨_, rfl, by simp, h⟩
                    | newline h => cases he; exact absurd h (not_or.2 hnn)
                    | backslash => cases he; exact absurd rfl hb
                    | u => cases he; exact absurd rfl hb
                    | unicode => cases he; exact absurd rfl hb

end FM
