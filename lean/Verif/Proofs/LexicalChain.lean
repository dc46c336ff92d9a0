import Verif.Proofs.LexicalStep
import Verif.Proofs.StreamFacts

/-! Helper lemmas for C51: the tokens of a whole file. -/

namespace FM
open Spec

variable {c : Cfg}

/-- Steps of the lexer that find a token without an error. -/
inductive Steps (c : Cfg) : Lx → List Token → Lx → Prop where
  | nil {l} : Steps c l [] l
  | cons {l l1 l' t ts} : processNext c l = .ok (some (.ok t), l1) → Steps c l1 ts l' → Steps c l (t :: ts) l'

theorem Steps.append {l l1 l' : Lx} {a b : List Token} (h : Steps c l a l1) (h' : Steps c l1 b l') : Steps c l (a ++ b) l' := by
  induction h with
  | nil => exact h'
  | cons h1 _ ih => exact .cons h1 (ih h')

theorem processNext_eof {l : Lx} (h0 : l.src.rest = []) (h1 : l.sentEof = true) : processNext c l = .ok (none, l) := by
  rw [processNext_nil h0, if_pos h1]

/-- The steps run to the end of the file. -/
def AtEnd (l : Lx) : Prop := l.sentEof = true ∧ l.src.rest = []

theorem Steps.ended {l l' : Lx} {ts : List Token} (h : Steps c l ts l') (he : AtEnd l) : ts = [] ∧ l' = l := by
  cases h with
  | nil => exact ⟨rfl, rfl⟩
  | cons h1 _ => rw [processNext_eof he.2 he.1] at h1; cases h1

theorem step_ok (hc : c.Good) {l l1 : Lx} {t : Token} (h : processNext c l = .ok (some (.ok t), l1)) :
    (l.src.rest = [] ∧ l.sentEof = false ∧ t.type = .eof ∧ l1 = { l with sentEof := true }) ∨
    (l.src.rest ≠ [] ∧ l1.sentEof = l.sentEof ∧ l.src.rest = t.type.display ++ l1.src.rest ∧ Lexeme c l.braces t.type l1.src.rest l1.braces) := by
  by_cases h0 : l.src.rest = []
  · left
    rw [processNext_nil h0] at h
    split at h
    · cases h
    · rename_i h1
      cases h
      exact ⟨h0, by simpa using h1, rfl, rfl⟩
  · right
    obtain ⟨h1, h2⟩ := (step_iff hc (l := l) (ty := t.type) (rest := l1.src.rest) (bs' := l1.braces) h0).1 (by rw [h]; rfl)
    refine ⟨h0, ?_, h1, h2⟩
    cases hr : l.src.rest with
    | nil => exact absurd hr h0
    | cons ch r =>
      obtain ⟨res, -, -, h3⟩ := processNext_cons hc hr h
      exact h3

theorem lexeme_ne {bs bs' : List BraceType} {ty : TokenType} {rest : Text} (h : Lexeme c bs ty rest bs') : ty.display ≠ [] := by
  intro he
  cases ty with
  | eof => exact h
  | shebang t => exact h
  | identifier t =>
    have he : t = [] := he
    subst he; exact h.1
  | symbol y =>
    have he : y.text = [] := he
    rcases sym_word (y := y) with h1 | h1
    · rw [he] at h1; exact h1
    · exact h1.2.2 he
  | number t =>
    have he : t = [] := he
    obtain ⟨first, t', h1, -⟩ := anyNumber_first h.1
    rw [he] at h1; cases h1
  | whitespace t =>
    have he : t = [] := he
    subst he
    rcases h.1 with h1 | ⟨_, _, _, h1, -⟩ <;> cases h1
  | stringLiteral body n q => cases q <;> cases he
  | interpolated body k => cases k <;> cases he
  | _ => cases he

theorem lexes_of_steps (hc : c.Good) {l l' : Lx} {ts : List Token} (h : Steps c l ts l') (h0 : l.sentEof = false) (he : AtEnd l') :
    Lexes c l.braces l.src.rest (ts.map Token.type) := by
  induction h with
  | nil => rw [he.1] at h0; cases h0
  | @cons l l1 l' t ts h1 h2 ih =>
    rcases step_ok hc h1 with ⟨g1, g2, g3, rfl⟩ | ⟨g1, g2, g3, g4⟩
    · obtain ⟨rfl, -⟩ := h2.ended ⟨rfl, g1⟩
      rw [g1, List.map_cons, g3]
      exact .eof
    · rw [g3, List.map_cons]
      exact .token g4 (ih (by rw [g2, h0]) he)

theorem steps_of_lexes (hc : c.Good) {bs : List BraceType} {text : Text} {tys : List TokenType} (h : Lexes c bs text tys) :
    ∀ {l : Lx}, l.src.rest = text → l.braces = bs → l.sentEof = false → ∃ ts l', Steps c l ts l' ∧ AtEnd l' ∧ ts.map Token.type = tys := by
  induction h with
  | eof =>
    intro l h1 _ h3
    refine ⟨_, _, .cons (t := ⟨l.src.pos, l.src.pos, .eof⟩) (l1 := { l with sentEof := true }) ?_ .nil, ⟨rfl, h1⟩, rfl⟩
    rw [processNext_nil h1, h3]; rfl
  | @token bs bs' ty rest tys h1 _ ih =>
    intro l e1 e2 e3
    have hne : l.src.rest ≠ [] := by rw [e1]; exact List.append_ne_nil_of_left_ne_nil (lexeme_ne h1) _
    have key := (step_iff hc (l := l) (ty := ty) (rest := rest) (bs' := bs') hne).2 ⟨e1, by rw [e2]; exact h1⟩
    unfold stepOut at key
    split at key
    · rename_i t l1 e
      cases key
      rcases step_ok hc e with ⟨g1, -⟩ | ⟨-, g2, -, -⟩
      · exact absurd g1 hne
      · obtain ⟨ts, l', h2, h3, h4⟩ := ih (l := l1) rfl rfl (by rw [g2, e3])
        exact ⟨t :: ts, l', .cons e h2, h3, by rw [List.map_cons, h4]⟩
    · cases key

theorem steps_len (hc : c.Good) {l l' : Lx} {ts : List Token} (h : Steps c l ts l') : ts.length ≤ l.src.rest.length + (if l.sentEof then 0 else 1) := by
  induction h with
  | nil => exact Nat.zero_le _
  | @cons l l1 l' t ts h1 h2 ih =>
    rcases step_ok hc h1 with ⟨g1, g2, g3, rfl⟩ | ⟨g1, g2, g3, g4⟩
    · simp [g1] at ih
      simp [g1, g2, ih]
    · have h5 := congrArg List.length g3
      rw [List.length_append] at h5
      have h6 : t.type.display.length ≠ 0 := fun h => lexeme_ne g4 (List.length_eq_zero_iff.1 h)
      rw [g2] at ih
      simp only [List.length_cons]
      omega

theorem trailing_braces {l l' : Lx} {o : Option (LexRes Token)} (hs : headIs startsTrailing l.src.rest = true) (h : processNext c l = .ok (o, l')) : l'.braces = l.braces := by
  unfold processNext at h
  cases hr : l.src.rest with
  | nil => rw [hr] at hs; cases hs
  | cons ch r =>
    rw [hr] at h hs
    dsimp only at h
    have hs : startsTrailing ch = true := hs
    have n : ¬ (ch = '"' ∨ ch = '\'' ∨ ch = '`') ∧ ch ≠ '{' ∧ ch ≠ '}' := by
      refine ⟨?_, ?_, ?_⟩
      · rintro (rfl | rfl | rfl) <;> exact absurd hs (by decide)
      · rintro rfl; exact absurd hs (by decide)
      · rintro rfl; exact absurd hs (by decide)
    rw [if_neg n.1, if_neg n.2.1, if_neg n.2.2] at h
    cases h
    rfl

theorem reset_eq {l l' : Lx} (h : l'.braces = l.braces) : ({ l' with src := l.src, sentEof := l.sentEof } : Lx) = l := by
  obtain ⟨s, b, bs⟩ := l
  obtain ⟨s', b', bs'⟩ := l'
  cases h
  rfl

/-! ### From the stream to the steps -/

theorem collectTrailing_steps {fuel : Nat} {l l' : Lx} {ts : List Token} (h : collectTrailing c fuel l = .ok (ts, l')) : Steps c l ts l' := by
  induction fuel generalizing l ts with
  | zero => cases h
  | succ fuel ih =>
    unfold collectTrailing at h
    split at h
    · rename_i hs
      cases hp : processNext c l with
      | panic => rw [hp] at h; cases h
      | diverge => rw [hp] at h; cases h
      | ok q =>
        obtain ⟨o, l1⟩ := q
        have hb := trailing_braces hs hp
        have hres := reset_eq hb
        rw [hp] at h
        simp only [Outcome.bind] at h
        have back : (Outcome.ok (([] : List Token), ({ l1 with src := l.src, sentEof := l.sentEof } : Lx)) = .ok (ts, l')) → Steps c l ts l' := by
          intro h
          rw [hres] at h
          cases h
          exact .nil
        cases o with
        | none => exact back h
        | some res =>
          cases res with
          | fatal es => exact back h
          | recovered t es => exact back h
          | ok t =>
            dsimp only at h
            split at h
            · split at h
              · cases h
                exact .cons hp .nil
              · cases hq : collectTrailing c fuel l1 with
                | panic => rw [hq] at h; cases h
                | diverge => rw [hq] at h; cases h
                | ok q =>
                  obtain ⟨ts1, l2⟩ := q
                  rw [hq] at h
                  cases h
                  exact .cons hp (ih hq)
            · exact back h
    · cases h
      exact .nil

theorem leadingLoop_some {fuel : Nat} {l l' : Lx} {lead ld : List Token} {es : List TokErr} {t : Token} : leadingLoop c fuel l lead (some es) ≠ .ok (.token ld t none, l') := by
  induction fuel generalizing l lead es with
  | zero => intro h; cases h
  | succ fuel ih =>
    intro h
    unfold leadingLoop at h
    cases hp : processNext c l with
    | panic => rw [hp] at h; cases h
    | diverge => rw [hp] at h; cases h
    | ok q =>
      obtain ⟨o, l1⟩ := q
      rw [hp] at h
      simp only [Outcome.bind] at h
      cases o with
      | none => cases h
      | some res =>
        cases res with
        | fatal es => cases h
        | recovered t es =>
          dsimp only at h
          split at h
          · exact ih h
          · cases h
        | ok t =>
          dsimp only at h
          split at h
          · exact ih h
          · cases h

theorem leadingLoop_steps {fuel : Nat} {l l' : Lx} {lead ld : List Token} {t : Token} (h : leadingLoop c fuel l lead none = .ok (.token ld t none, l')) :
    ∃ ld', ld = lead ++ ld' ∧ Steps c l (ld' ++ [t]) l' := by
  induction fuel generalizing l lead with
  | zero => cases h
  | succ fuel ih =>
    unfold leadingLoop at h
    cases hp : processNext c l with
    | panic => rw [hp] at h; cases h
    | diverge => rw [hp] at h; cases h
    | ok q =>
      obtain ⟨o, l1⟩ := q
      rw [hp] at h
      simp only [Outcome.bind] at h
      cases o with
      | none => cases h
      | some res =>
        cases res with
        | fatal es => cases h
        | recovered t es =>
          dsimp only at h
          split at h
          · exact absurd h leadingLoop_some
          · cases h
        | ok t =>
          dsimp only at h
          split at h
          · obtain ⟨ld', rfl, h1⟩ := ih h
            exact ⟨t :: ld', by simp, .cons hp h1⟩
          · cases h
            exact ⟨[], by simp, .cons hp .nil⟩

theorem processNextWithTrivia_steps {l l' : Lx} {u : TokRef} (h : processNextWithTrivia c l = .ok (some (.ok u), l')) : Steps c l u.flat l' := by
  unfold processNextWithTrivia at h
  cases hp : leadingLoop c (l.src.rest.length + 1) l [] none with
  | panic => rw [hp] at h; cases h
  | diverge => rw [hp] at h; cases h
  | ok q =>
    obtain ⟨o, l1⟩ := q
    rw [hp] at h
    simp only [Outcome.bind] at h
    cases o with
    | done => cases h
    | fatal es => cases h
    | token ld t errors =>
      dsimp only at h
      cases hq : collectTrailing c (l1.src.rest.length + 1) l1 with
      | panic => rw [hq] at h; cases h
      | diverge => rw [hq] at h; cases h
      | ok q =>
        obtain ⟨ts, l2⟩ := q
        rw [hq] at h
        cases errors with
        | some es => cases h
        | none =>
          cases h
          obtain ⟨ld', e, h1⟩ := leadingLoop_steps hp
          have e : ld = ld' := e
          subst e
          have := h1.append (collectTrailing_steps hq)
          simpa [TokRef.flat] using this

theorem flatTokens_ok (us : List TokRef) : flatTokens (us.map .ok) = us.flatMap TokRef.flat := by
  induction us with
  | nil => rfl
  | cons u us ih =>
    rw [List.map_cons, List.flatMap_cons, ← ih]
    simp [flatTokens, tokensOf]

theorem lexRest_steps (hc : c.Good) {src : Text} {fuel : Nat} {pre : Text} {l : Lx} {us : List TokRef} (hat : At src pre l.src) (hinv : l.sentEof = true → l.src.rest = [])
    (h : lexRest c fuel l = .ok (us.map .ok)) : ∃ l', Steps c l (us.flatMap TokRef.flat) l' ∧ AtEnd l' := by
  induction fuel generalizing l pre us with
  | zero => cases h
  | succ fuel ih =>
    unfold lexRest at h
    rcases processNextWithTrivia_spec hc hat hinv with ⟨hp, -⟩ | ⟨o, l1, w, hp, hr, hinv1, hspec⟩
    · rw [hp] at h; cases h
    · rw [hp] at h
      simp only [Outcome.bind] at h
      cases o with
      | none =>
        cases us with
        | nil => exact ⟨l, .nil, hspec.1, hinv hspec.1⟩
        | cons u us => cases h
      | some r =>
        dsimp only at h
        cases hq : lexRest c fuel l1 with
        | panic => rw [hq] at h; cases h
        | diverge => rw [hq] at h; cases h
        | ok rs =>
          rw [hq] at h
          cases us with
          | nil => cases h
          | cons u us =>
            simp only [List.map_cons, Outcome.ok.injEq, List.cons.injEq] at h
            obtain ⟨rfl, rfl⟩ := h
            obtain ⟨l', h1, h2⟩ := ih (hat.reads hr) hinv1 hq
            exact ⟨l', (processNextWithTrivia_steps hp).append h1, h2⟩

theorem Run.allOk {src pre : Text} {l : Lx} {rs : List (LexRes TokRef)} (h : Run c src pre l rs) (he : errorsOf rs = []) : ∃ us : List TokRef, rs = us.map .ok := by
  induction h with
  | stop => exact ⟨[], rfl⟩
  | @next pre w l r l' rs h1 _ _ ih =>
    rw [errorsOf_cons, List.append_eq_nil_iff] at he
    obtain ⟨us, rfl⟩ := ih he.2
    obtain ⟨hr, _, hspec⟩ := h1
    cases r with
    | fatal es => exact absurd (by simpa [errorsOf] using he.1) hspec.1
    | recovered t es => exact absurd (by simpa [errorsOf] using he.1) hspec.2.1
    | ok t => exact ⟨t :: us, rfl⟩

/-! ### From the steps to the stream -/

theorem collectTrailing_of (hc : c.Good) {fuel : Nat} {l lE : Lx} {ts : List Token} (h : Steps c l ts lE) (he : AtEnd lE) (hf : l.src.rest.length ≤ fuel) :
    ∃ ts1 ts2 l1, collectTrailing c (fuel + 1) l = .ok (ts1, l1) ∧ ts = ts1 ++ ts2 ∧ Steps c l1 ts2 lE := by
  induction fuel generalizing l ts with
  | zero =>
    refine ⟨[], ts, l, ?_, rfl, h⟩
    unfold collectTrailing
    have h0 : l.src.rest = [] := List.length_eq_zero_iff.1 (Nat.le_zero.1 hf)
    rw [h0]
    rfl
  | succ fuel ih =>
    unfold collectTrailing
    split
    · rename_i hh
      have hne : l.src.rest ≠ [] := by intro h; rw [h] at hh; cases hh
      have hs := h
      cases h with
      | nil => exact absurd he.2 hne
      | @cons _ l1 _ t ts h1 h2 =>
        rw [h1]
        simp only [Outcome.bind]
        split
        · split
          · exact ⟨[t], ts, l1, rfl, rfl, h2⟩
          · have hlen : l1.src.rest.length ≤ fuel := by
              rcases step_ok hc h1 with ⟨g1, -⟩ | ⟨-, -, g3, g4⟩
              · exact absurd g1 hne
              · have h5 := congrArg List.length g3
                rw [List.length_append] at h5
                have h6 : t.type.display.length ≠ 0 := fun h => lexeme_ne g4 (List.length_eq_zero_iff.1 h)
                omega
            obtain ⟨ts1, ts2, l2, g1, rfl, g3⟩ := ih h2 hlen
            rw [g1]
            exact ⟨t :: ts1, ts2, l2, rfl, rfl, g3⟩
        · rw [reset_eq (trailing_braces hh h1)]
          exact ⟨[], t :: ts, l, rfl, rfl, hs⟩
    · exact ⟨[], ts, l, rfl, rfl, h⟩

theorem leadingLoop_of (hc : c.Good) {fuel : Nat} {l lE : Lx} {ts lead : List Token} (h : Steps c l ts lE) (h0 : l.sentEof = false) (he : AtEnd lE) (hf : ts.length ≤ fuel) :
    ∃ ld t ts2 l1, leadingLoop c fuel l lead none = .ok (.token (lead ++ ld) t none, l1) ∧ ts = ld ++ t :: ts2 ∧ Steps c l1 ts2 lE := by
  induction fuel generalizing l ts lead with
  | zero =>
    cases h with
    | nil => rw [he.1] at h0; cases h0
    | cons _ _ => simp at hf
  | succ fuel ih =>
    cases h with
    | nil => rw [he.1] at h0; cases h0
    | @cons _ l1 _ t ts h1 h2 =>
      unfold leadingLoop
      rw [h1]
      simp only [Outcome.bind]
      split
      · rename_i htr
        have h0' : l1.sentEof = false := by
          rcases step_ok hc h1 with ⟨-, -, g3, -⟩ | ⟨-, g2, -, -⟩
          · rw [g3] at htr; cases htr
          · rw [g2, h0]
        obtain ⟨ld, t', ts2, l2, g1, rfl, g3⟩ := ih (lead := lead ++ [t]) h2 h0' (by simpa using hf)
        rw [g1]
        exact ⟨t :: ld, t', ts2, l2, by simp, rfl, g3⟩
      · exact ⟨[], t, ts, l1, by simp, rfl, h2⟩

theorem processNextWithTrivia_of (hc : c.Good) {l lE : Lx} {ts : List Token} (h : Steps c l ts lE) (h0 : l.sentEof = false) (he : AtEnd lE) :
    ∃ u ts2 l1, processNextWithTrivia c l = .ok (some (.ok u), l1) ∧ ts = u.flat ++ ts2 ∧ Steps c l1 ts2 lE := by
  have hl := steps_len hc h
  have hl : ts.length ≤ l.src.rest.length + 1 := by rw [h0] at hl; simpa using hl
  obtain ⟨ld, t, ts2, l1, g1, rfl, g3⟩ := leadingLoop_of hc (lead := []) h h0 he hl
  obtain ⟨ts1, ts3, l2, k1, rfl, k3⟩ := collectTrailing_of hc g3 he (Nat.le_refl _)
  refine ⟨⟨ld, t, ts1⟩, ts3, l2, ?_, by simp [TokRef.flat], k3⟩
  unfold processNextWithTrivia
  rw [g1]
  simp only [Outcome.bind]
  rw [k1]
  rfl


theorem processNextWithTrivia_end {l : Lx} (h : AtEnd l) : processNextWithTrivia c l = .ok (none, l) := by
  unfold processNextWithTrivia leadingLoop
  rw [processNext_eof h.2 h.1]

theorem steps_inv (hc : c.Good) {l l' : Lx} {ts : List Token} (h : Steps c l ts l') (h0 : l.sentEof = true → l.src.rest = []) : l'.sentEof = true → l'.src.rest = [] := by
  induction h with
  | nil => exact h0
  | cons h1 _ ih =>
    refine ih ?_
    rcases step_ok hc h1 with ⟨g1, -, -, rfl⟩ | ⟨g1, g2, -, -⟩
    · exact fun _ => g1
    · intro h
      rw [g2] at h
      exact absurd (h0 h) g1

theorem lexRest_of (hc : c.Good) {fuel : Nat} {l lE : Lx} {ts : List Token} (h : Steps c l ts lE) (hinv : l.sentEof = true → l.src.rest = []) (he : AtEnd lE) (hf : ts.length ≤ fuel) :
    ∃ us : List TokRef, lexRest c (fuel + 1) l = .ok (us.map .ok) ∧ us.flatMap TokRef.flat = ts := by
  induction fuel generalizing l ts with
  | zero =>
    cases h with
    | nil =>
      refine ⟨[], ?_, rfl⟩
      unfold lexRest
      rw [processNextWithTrivia_end he]
      rfl
    | cons _ _ => simp at hf
  | succ fuel ih =>
    unfold lexRest
    cases h0 : l.sentEof with
    | true =>
      obtain ⟨rfl, rfl⟩ := h.ended ⟨h0, hinv h0⟩
      rw [processNextWithTrivia_end he]
      exact ⟨[], rfl, rfl⟩
    | false =>
      obtain ⟨u, ts2, l1, g1, rfl, g3⟩ := processNextWithTrivia_of hc h h0 he
      have hi := steps_inv hc (processNextWithTrivia_steps g1) hinv
      obtain ⟨us, k1, rfl⟩ := ih g3 hi (by simp [TokRef.flat] at hf; omega)
      rw [g1]
      simp only [Outcome.bind]
      rw [k1]
      exact ⟨u :: us, rfl, rfl⟩

theorem steps_types (hc : c.Good) {l l' : Lx} {ts : List Token} (h : Steps c l ts l') : ∀ t ∈ ts, ∀ x, t.type ≠ .shebang x := by
  induction h with
  | nil => nofun
  | cons h1 _ ih =>
    intro t ht x hx
    rcases List.mem_cons.1 ht with rfl | ht
    · rcases step_ok hc h1 with ⟨-, -, g3, -⟩ | ⟨-, -, -, g4⟩
      · rw [hx] at g3; cases g3
      · rw [hx] at g4; exact g4
    · exact ih t ht x hx

theorem errorsOf_ok (us : List TokRef) : errorsOf (us.map .ok) = [] := by
  induction us with
  | nil => rfl
  | cons u us ih => rw [List.map_cons, errorsOf_cons, ih]; rfl

/-- The loop of the stream from a state that is not at the end. -/
theorem first_eq (hc : c.Good) {src pre : Text} {n : Nat} {l : Lx} (hat : At src pre l.src) (hinv : l.sentEof = true → l.src.rest = []) :
    ((processNextWithTrivia c l).bind fun
        | (none, l) => (lexRest c (n + 1) l).bind fun ts => .ok ts
        | (some t, l) => (lexRest c (n + 1) l).bind fun ts => .ok (t :: ts)) = lexRest c (n + 2) l := by
  conv => rhs; unfold lexRest
  rcases processNextWithTrivia_spec hc hat hinv with ⟨hp, hn⟩ | ⟨o, l1, w, h1, hr, hinv1, hspec⟩
  · rw [hp]
  rw [h1]
  cases o with
  | none =>
    obtain ⟨g1, rfl⟩ := hspec
    simp only [Outcome.bind]
    have : lexRest c (n + 1) l1 = .ok [] := by unfold lexRest; rw [h1]
    rw [this]
  | some r => rfl

theorem lexAll_allOk (hc : c.Good) {source : Text} {rs : List (LexRes TokRef)} (h : lexAll c source = .ok rs) (he : errorsOf rs = []) : ∃ us : List TokRef, rs = us.map .ok := by
  rcases lexAll_spec hc (src := source) with ⟨hp, -⟩ | ⟨rs', h1, -, h2⟩
  · rw [h] at hp; cases hp
  · rw [h] at h1
    cases h1
    rcases h2 with ⟨h2, -⟩ | ⟨-, pre, l, -, -, -, h2⟩
    · exact h2.allOk he
    · exact h2.allOk he

theorem lexAll_plain (hc : c.Good) {source : Text} {tys : List TokenType} (hsh : ¬ HasShebang source) :
    (∃ rs, lexAll c source = .ok rs ∧ errorsOf rs = [] ∧ ShebangKept source rs ∧ (flatTokens rs).map Token.type = tys) ↔ Lexes c [] source tys := by
  have hat0 := At.new source
  have hinv0 : (Lx.new source).sentEof = true → (Lx.new source).src.rest = [] := by simp [Lx.new]
  have heq : lexAll c source = lexRest c (source.length + 3) (Lx.new source) := by
    unfold lexAll
    rw [processFirst_noShebang hsh]
    exact first_eq hc hat0 hinv0
  constructor
  · rintro ⟨rs, h1, h2, -, rfl⟩
    obtain ⟨us, rfl⟩ := lexAll_allOk hc h1 h2
    rw [heq] at h1
    obtain ⟨l', h3, h4⟩ := lexRest_steps hc hat0 hinv0 h1
    rw [flatTokens_ok]
    exact lexes_of_steps hc h3 rfl h4
  · intro h
    obtain ⟨ts, l', h1, h2, rfl⟩ := steps_of_lexes hc h (l := Lx.new source) rfl rfl rfl
    have hl := steps_len hc h1
    obtain ⟨us, h3, h4⟩ := lexRest_of hc (fuel := source.length + 2) h1 hinv0 h2 (by
      have : (Lx.new source).src.rest.length = source.length := rfl
      have hl : ts.length ≤ source.length + 1 := hl
      omega)
    exact ⟨_, heq.trans h3, errorsOf_ok us, fun h => absurd h hsh, by rw [flatTokens_ok, h4]⟩

/-- The first line of a text. -/
theorem line_unique {line line' rest rest' : Text} (e : line ++ rest = line' ++ rest') (hnl : '\n' ∉ line) (n : '\n' ∉ line')
    (h4 : rest = [] ∨ rest.head? = some '\n') (d : rest' = [] ∨ rest'.head? = some '\n') : line' = line ∧ rest' = rest := by
  induction line generalizing line' with
  | nil =>
    cases line' with
    | nil => exact ⟨rfl, e.symm⟩
    | cons x line' =>
      have e : rest = x :: (line' ++ rest') := e
      rcases h4 with h4 | h4
      · rw [h4] at e; cases e
      · rw [e] at h4; simp at h4; subst h4; simp at n
  | cons y line ih =>
    cases line' with
    | nil =>
      have e : y :: (line ++ rest) = rest' := e
      rcases d with d | d
      · rw [d] at e; cases e
      · rw [← e] at d; simp at d; subst d; simp at hnl
    | cons x line' =>
      simp only [List.cons_append, List.cons.injEq] at e
      obtain ⟨rfl, e⟩ := e
      simp only [List.mem_cons, not_or] at n hnl
      obtain ⟨rfl, g⟩ := ih e hnl.2 n.2
      exact ⟨rfl, g⟩

theorem lexAll_shebang (hc : c.Good) {source : Text} {tys : List TokenType} (hsh : HasShebang source) :
    (∃ rs, lexAll c source = .ok rs ∧ errorsOf rs = [] ∧ ShebangKept source rs ∧ (flatTokens rs).map Token.type = tys) ↔
    ∃ line rest tys', source = line ++ rest ∧ HasShebang line ∧ '\n' ∉ line ∧ (rest = [] ∨ rest.head? = some '\n') ∧ tys = .shebang line :: tys' ∧ Lexes c [] rest tys' := by
  obtain ⟨r, rfl⟩ : ∃ r, source = '#' :: '!' :: r := by
    unfold HasShebang at hsh
    match source, hsh with
    | a :: b :: r, h => simp at h; exact ⟨r, by rw [h.1, h.2]⟩
    | [a], h => simp at h
    | [], h => simp at h
  obtain ⟨w, h1, h2, h3, h4⟩ := lineLoop_spec' r (((Lx.new ('#' :: '!' :: r)).src.pos.advance '#').advance '!') ['#', '!']
  generalize hll : lineLoop r (((Lx.new ('#' :: '!' :: r)).src.pos.advance '#').advance '!') ['#', '!'] = ll at h1 h2 h4
  obtain ⟨line, s⟩ := ll
  simp only at h1 h2 h4
  have hr0 : Reads (Lx.new ('#' :: '!' :: r)).src ('#' :: '!' :: w) s := .cons (.cons h2)
  have hline : line = '#' :: '!' :: w := by rw [h1]; rfl
  have hat1 := (At.new ('#' :: '!' :: r)).reads hr0
  rw [← hline, List.nil_append] at hat1
  have hsrc : '#' :: '!' :: r = line ++ s.rest := hat1.1
  have hnl : '\n' ∉ line := by rw [hline]; simpa using h3
  let l1 : Lx := { Lx.new ('#' :: '!' :: r) with src := s }
  have hinv1 : l1.sentEof = true → l1.src.rest = [] := fun h => by cases h
  have hlen : s.rest.length ≤ r.length + 2 := by
    have := congrArg List.length hsrc
    simp at this; omega
  have hfirst : processFirstWithTrivia c (Lx.new ('#' :: '!' :: r)) =
      (processNextWithTrivia c l1).bind fun
        | (some (.ok t), l') => .ok (some (.ok { t with leading := ⟨(Lx.new ('#' :: '!' :: r)).src.pos, s.pos, .shebang line⟩ :: t.leading }), l')
        | (_, l') => processNextWithTrivia c l' := by
    unfold processFirstWithTrivia
    have hnew : (Lx.new ('#' :: '!' :: r)).src.rest = '#' :: '!' :: r := rfl
    simp only [hnew, hll]
    rfl
  constructor
  · rintro ⟨rs, e1, e2, e3, rfl⟩
    obtain ⟨us, rfl⟩ := lexAll_allOk hc e1 e2
    rw [flatTokens_ok]
    unfold lexAll at e1
    rw [hfirst] at e1
    rcases processNextWithTrivia_spec hc (l := l1) hat1 hinv1 with ⟨hp, -⟩ | ⟨o, l2, w', hp, hr, hinv2, -⟩
    · rw [hp] at e1; cases e1
    · rw [hp] at e1
      have hat2 := hat1.reads hr
      have other : ((processNextWithTrivia c l2).bind fun
          | (none, l) => (lexRest c (('#' :: '!' :: r).length + 2) l).bind fun ts => .ok ts
          | (some t, l) => (lexRest c (('#' :: '!' :: r).length + 2) l).bind fun ts => .ok (t :: ts)) = .ok (us.map .ok) → False := by
        intro e1
        rw [first_eq hc hat2 hinv2] at e1
        obtain ⟨l', g1, g2⟩ := lexRest_steps hc hat2 hinv2 e1
        obtain ⟨t, rest, line', ts, k1, k2, -, x, k3⟩ := e3 rfl
        cases us with
        | nil => cases k1
        | cons u us =>
          simp only [List.map_cons, List.cons.injEq, LexRes.ok.injEq] at k1
          obtain ⟨rfl, -⟩ := k1
          refine steps_types hc g1 line' ?_ x k3
          rw [List.flatMap_cons, TokRef.flat, k2]
          simp
      cases o with
      | none => exact (other e1).elim
      | some res =>
        cases res with
        | fatal es => exact (other e1).elim
        | recovered t es => exact (other e1).elim
        | ok t =>
          simp only [Outcome.bind] at e1
          cases hq : lexRest c (('#' :: '!' :: r).length + 2) l2 with
          | panic => rw [hq] at e1; cases e1
          | diverge => rw [hq] at e1; cases e1
          | ok rs =>
            rw [hq] at e1
            cases us with
            | nil => cases e1
            | cons u us =>
              simp only [List.map_cons, Outcome.ok.injEq, List.cons.injEq, LexRes.ok.injEq] at e1
              obtain ⟨rfl, rfl⟩ := e1
              obtain ⟨l', g1, g2⟩ := lexRest_steps hc hat2 hinv2 hq
              have g3 := lexes_of_steps hc ((processNextWithTrivia_steps hp).append g1) rfl g2
              refine ⟨line, s.rest, _, hsrc, ?_, hnl, h4, ?_, g3⟩
              · rw [hline]; rfl
              · simp [TokRef.flat]
  · rintro ⟨line', rest, tys', e1, -, e3, e4, rfl, e5⟩
    obtain ⟨rfl, rfl⟩ := line_unique (hsrc.symm.trans e1) hnl e3 h4 e4
    obtain ⟨ts, l', g1, g2, rfl⟩ := steps_of_lexes hc e5 (l := l1) rfl rfl rfl
    have hl := steps_len hc g1
    have hl : ts.length ≤ s.rest.length + 1 := hl
    obtain ⟨u, ts2, l2, k1, rfl, k3⟩ := processNextWithTrivia_of hc g1 rfl g2
    have hi := steps_inv hc (processNextWithTrivia_steps k1) hinv1
    obtain ⟨us, m1, rfl⟩ := lexRest_of hc (fuel := ('#' :: '!' :: r).length + 1) k3 hi g2 (by
      rw [List.length_append] at hl
      simp only [List.length_cons]
      have : u.flat.length ≠ 0 := by simp [TokRef.flat]
      omega)
    refine ⟨(({ u with leading := ⟨(Lx.new ('#' :: '!' :: r)).src.pos, s.pos, .shebang line'⟩ :: u.leading } : TokRef) :: us).map .ok, ?_, errorsOf_ok _, ?_, ?_⟩
    · unfold lexAll
      rw [hfirst, k1]
      simp only [Outcome.bind]
      rw [m1]
      rfl
    · intro _
      exact ⟨_, _, _, _, rfl, rfl, rfl, _, rfl⟩
    · rw [flatTokens_ok]
      simp [TokRef.flat]

theorem lexAll_lexes (hc : c.Good) {source : Text} {tys : List TokenType} :
    (∃ rs, lexAll c source = .ok rs ∧ errorsOf rs = [] ∧ ShebangKept source rs ∧ (flatTokens rs).map Token.type = tys) ↔ LexesFile c source tys := by
  unfold LexesFile
  by_cases hsh : HasShebang source
  · rw [lexAll_shebang hc hsh, or_iff_right (fun h => h.1 hsh)]
  · rw [lexAll_plain hc hsh]
    refine ⟨fun h => Or.inl ⟨hsh, h⟩, ?_⟩
    rintro (⟨-, h⟩ | ⟨line, rest, tys', rfl, h, -⟩)
    · exact h
    · refine absurd ?_ hsh
      unfold HasShebang at h ⊢
      match line, h with
      | a :: b :: line, h => simpa using h
      | [a], h => simp at h
      | [], h => simp at h

end FM
