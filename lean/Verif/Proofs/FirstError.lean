import Verif.Proofs.Before
import Verif.Spec.FirstError

/-! Helper lemmas for C71: the first error of the tokenizer. -/

namespace FM
open Spec

variable {c : Cfg}

/-! ### A comment that is not closed ends the file -/

/-- What was recovered is trivia only at the end of the file. -/
structure Tail (r : ReadRes) : Prop where
  rest : ∀ t es, r.1 = .recovered t es → t.type.isTrivia = true → r.2.rest = []

theorem tail_ok {t : Token} {s : Src} : Tail (.ok t, s) := ⟨by intro _ _ h; cases h⟩

theorem tail_fatal {es : List TokErr} {s : Src} : Tail (.fatal es, s) := ⟨by intro _ _ h; cases h⟩

theorem tail_create {start : Position} {ty : TokenType} {s : Src} : Tail (create start ty s) := tail_ok

theorem tail_sym {start : Position} {y : Symbol} {s : Src} : Tail (symTok start y s) := tail_ok

theorem tail_recovered {start : Position} {ty : TokenType} {es : List TokErr} {s : Src} (h : ty.isTrivia = true → es ≠ [] → s.rest = []) :
    Tail (createRecovered start ty es s) := by
  refine ⟨fun t es' h1 h2 => ?_⟩
  cases es with
  | nil => cases h1
  | cons e es => cases h1; exact h h2 (by simp)

theorem tail_eat (start : Position) (rest : List Char) (p : Position) (n : Text) : Tail (eatInvalidNumber start rest p n) := by
  induction rest generalizing p n with
  | nil => exact ⟨by intro t es h1 h2; cases h1; cases h2⟩
  | cons ch r ih =>
    unfold eatInvalidNumber
    split
    · exact ⟨by intro t es h1 h2; cases h1; cases h2⟩
    · exact ih _ _

theorem tail_exponentLoop (start : Position) (rest : List Char) (p : Position) (n : Text) : Tail (exponentLoop c start rest p n) := by
  induction rest generalizing p n with
  | nil => exact tail_create
  | cons ch r ih =>
    unfold exponentLoop
    split
    · exact ih _ _
    · exact tail_create

theorem tail_exponentDigits (start : Position) (rest : List Char) (p : Position) (n : Text) : Tail (exponentDigits c start rest p n) := by
  unfold exponentDigits
  split
  · exact tail_eat ..
  · exact tail_exponentLoop ..

theorem tail_exponentPart (start : Position) (m : Char) (rest : List Char) (p : Position) (n : Text) : Tail (readExponentPart c start m rest p n) := by
  unfold readExponentPart
  split
  · exact tail_exponentDigits ..
  · split <;> exact tail_exponentDigits ..

theorem tail_suffix (start : Position) (rest : List Char) (p : Position) (n : Text) : Tail (readLuajitSuffix start rest p n) := by
  induction rest generalizing p n with
  | nil => exact tail_create
  | cons ch r ih =>
    unfold readLuajitSuffix
    split
    · split
      · exact tail_eat ..
      · exact ih _ _
    · split
      · split
        · split
          · exact tail_create
          · exact tail_eat ..
        · exact tail_eat ..
      · split
        · exact tail_create
        · exact tail_eat ..

theorem tail_numberLoop (start : Position) (rest : List Char) (p : Position) (n : Text) (hit : Bool) : Tail (numberLoop c start rest p n hit) := by
  induction rest generalizing p n hit with
  | nil => exact tail_create
  | cons ch r ih =>
    unfold numberLoop
    repeat' split
    all_goals first | exact ih _ _ _ | exact tail_eat .. | exact tail_exponentPart .. | exact tail_suffix .. | exact tail_create

theorem tail_finishPrefixed (start : Position) (n : Text) (s : Src) : Tail (finishPrefixed start n s) := by
  unfold finishPrefixed
  split
  · exact tail_eat ..
  · exact tail_create

theorem tail_hexLoop (start : Position) (rest : List Char) (p : Position) (n : Text) (hit : Bool) : Tail (hexLoop c start rest p n hit) := by
  induction rest generalizing p n hit with
  | nil => exact tail_finishPrefixed ..
  | cons ch r ih =>
    unfold hexLoop
    repeat' split
    all_goals first | exact ih _ _ _ | exact tail_eat .. | exact tail_exponentPart .. | exact tail_suffix .. | exact tail_finishPrefixed ..

theorem tail_binaryLoop (start : Position) (rest : List Char) (p : Position) (n : Text) : Tail (binaryLoop c start rest p n) := by
  induction rest generalizing p n with
  | nil => exact tail_finishPrefixed ..
  | cons ch r ih =>
    unfold binaryLoop
    repeat' split
    all_goals first | exact ih _ _ | exact tail_suffix .. | exact tail_finishPrefixed ..

theorem tail_zero (start : Position) (s : Src) : Tail (readZero c start s) := by
  unfold readZero
  repeat' split
  all_goals first | exact tail_hexLoop .. | exact tail_binaryLoop .. | exact tail_numberLoop ..

theorem cStyleLoop_end (rest : List Char) (p : Position) (acc : Text) (h : (cStyleLoop rest p acc).2.1 = true) : (cStyleLoop rest p acc).2.2.rest = [] := by
  induction rest generalizing p acc with
  | nil => rfl
  | cons ch r ih =>
    cases r with
    | nil => exact ih _ _ h
    | cons x r =>
      have e : cStyleLoop (ch :: x :: r) p acc = if ch = '*' ∧ x = '/' then (acc, false, ⟨r, (p.advance ch).advance x⟩) else cStyleLoop (x :: r) (p.advance ch) (acc ++ [ch]) := by
        conv => lhs; unfold cStyleLoop
      rw [e] at h ⊢
      split at h
      · cases h
      · rename_i hn
        rw [if_neg hn]
        exact ih _ _ h

theorem readComment_end (s : Src) (h : (readComment s).2.1 = true) : (readComment s).2.2.rest = [] := by
  unfold readComment at h ⊢
  dsimp only at h ⊢
  generalize s.consume '[' = q at h
  obtain ⟨b, s1⟩ := q
  cases b with
  | false => cases h
  | true =>
    dsimp only at h ⊢
    have hb := readMultiLineBody_spec s1
    generalize readMultiLineBody s1 = m at h hb
    obtain ⟨m, s2⟩ := m
    cases m with
    | ok n body => cases h
    | notMultiLine n => cases h
    | unclosed n body =>
      rcases hb with ⟨_, _, e, -⟩ | ⟨_, _, -, -, e⟩ | ⟨_, e, -⟩
      · cases e
      · exact e
      · cases e

theorem tail_comment (start : Position) {r : TokenType × Bool × Src} (h : r.2.1 = true → r.2.2.rest = []) : Tail (commentToken start r) := by
  unfold commentToken
  refine tail_recovered fun _ hne => h ?_
  by_cases h1 : r.2.1 = true
  · exact h1
  · rw [if_neg h1] at hne; exact absurd rfl hne

theorem tail_minusRest (start : Position) (s : Src) : Tail (readMinusRest start s) := by
  unfold readMinusRest
  split
  · exact tail_comment start (readComment_end _)
  · exact tail_sym

theorem tail_leftBracket (start : Position) (s : Src) : Tail (readLeftBracket start s) := by
  unfold readLeftBracket
  repeat' split
  all_goals first | exact tail_create | exact tail_recovered fun h => by cases h

theorem tail_slash (start : Position) (s : Src) : Tail (readSlash c start s) := by
  unfold readSlash
  repeat' split
  all_goals first | exact tail_sym | skip
  rename_i e
  refine tail_comment start fun h => ?_
  have := cStyleLoop_end _ _ _ (by rw [e]; exact h)
  rw [e] at this
  exact this

theorem tail_equal (start : Position) (s : Src) : Tail (readEqual start s) := by
  unfold readEqual
  split <;> exact tail_sym

theorem tail_tilde (start : Position) (s : Src) : Tail (readTilde c start s) := by
  unfold readTilde
  repeat' split
  all_goals first | exact tail_sym | exact tail_fatal

theorem tail_gated (vs : List Ver) (ch : Char) (a b : Symbol) (start : Position) (s : Src) : Tail (readGated c vs ch a b start s) := by
  unfold readGated
  repeat' split
  all_goals exact tail_sym

theorem tail_angle (ch : Char) (w x y z : Symbol) (start : Position) (s : Src) : Tail (readAngle c ch w x y z start s) := by
  unfold readAngle
  dsimp only
  repeat' split
  all_goals exact tail_sym

theorem tail_dot (start : Position) (s : Src) : Tail (readDot c start s) := by
  unfold readDot
  repeat' split
  all_goals first | exact tail_sym | exact tail_numberLoop ..

theorem tail_minus (start : Position) (s : Src) : Tail (readMinus c start s) := by
  unfold readMinus
  repeat' split
  all_goals first | exact tail_sym | exact tail_minusRest ..

theorem tail_other (start : Position) (ch : Char) (s : Src) : Tail (readOther c start ch s) := by
  unfold readOther
  repeat' split
  all_goals first | exact tail_sym | exact tail_fatal

theorem tail_number (start : Position) (n : Text) (s : Src) : Tail (readNumber c start n s) := tail_numberLoop ..

theorem tail_ident (start : Position) (ch : Char) (s : Src) : Tail (readIdent c start ch s) := tail_create

theorem tail_white (start : Position) (ch : Char) (s : Src) : Tail (readWhitespace start ch s) := tail_ok

theorem tail_ite {p : Prop} [Decidable p] {a b : ReadRes} (ha : Tail a) (hb : Tail b) : Tail (if p then a else b) := by
  split
  · exact ha
  · exact hb

theorem tail_plain (start : Position) (ch : Char) (s : Src) : Tail (readPlain c start ch s) := by
  unfold readPlain
  repeat' with_reducible first
    | exact tail_sym | exact tail_ident .. | exact tail_white .. | exact tail_zero .. | exact tail_number .. | exact tail_leftBracket .. | exact tail_slash ..
    | exact tail_equal .. | exact tail_tilde .. | exact tail_gated .. | exact tail_angle .. | exact tail_dot .. | exact tail_minus .. | exact tail_other ..
    | exact tail_ok | refine tail_ite ?_ ?_

theorem processNext_tail {l l' : Lx} {t : Token} {es : List TokErr} (h : processNext c l = .ok (some (.recovered t es), l')) (ht : t.type.isTrivia = true) :
    l'.src.rest = [] := by
  unfold processNext at h
  have fin : ∀ {l0 : Lx} {q : ReadRes}, Tail q → Outcome.ok (l0.finish q) = .ok (some (.recovered t es), l') → l'.src.rest = [] := by
    intro l0 q hq h
    obtain ⟨q1, q2⟩ := q
    cases h
    exact hq.rest t es rfl ht
  have sect : ∀ {l0 : Lx} {st : Position} {a b : InterpKind}, Outcome.ok (readSection l0 st a b) = .ok (some (.recovered t es), l') → l'.src.rest = [] := by
    intro l0 st a b h
    unfold readSection at h
    split at h
    all_goals cases h
    cases ht
  dsimp only at h
  split at h
  · split at h <;> cases h
  · split at h
    · split at h
      · exact sect h
      · unfold readString at h
        split at h
        · cases h
        · exact fin (tail_recovered fun h => by cases h) h
    · split at h
      · exact fin tail_sym h
      · split at h
        · split at h
          · split at h
            · exact sect h
            · exact fin tail_sym h
          · exact fin tail_sym h
        · exact fin (tail_plain ..) h

/-! ### Steps up to the first error -/

/-- The step finds no token, and reports the errors. -/
def Breaks (c : Cfg) (l : Lx) (es : List TokErr) : Prop :=
  ∃ l', processNext c l = .ok (some (.fatal es), l') ∨ ∃ t, processNext c l = .ok (some (.recovered t es), l')

theorem leadingLoop_breaks {fuel : Nat} {l l' : Lx} {lead : List Token} {nt : NonTrivial} {es : List TokErr}
    (h : leadingLoop c fuel l lead none = .ok (nt, l')) (hn : nt = .fatal es ∨ ∃ ld t, nt = .token ld t (some es)) :
    ∃ ts l1, Steps c l ts l1 ∧ (∀ t ∈ ts, t.type.isTrivia = true) ∧ Breaks c l1 es := by
  induction fuel generalizing l lead with
  | zero => cases h
  | succ fuel ih =>
    unfold leadingLoop at h
    cases hp : processNext c l with
    | panic => rw [hp] at h; cases h
    | diverge => rw [hp] at h; cases h
    | ok q =>
      obtain ⟨o, l1⟩ := q
      rw [hp] at h
      simp only [Outcome.bind] at h
      cases o with
      | none =>
        cases h
        rcases hn with hn | ⟨_, _, hn⟩ <;> cases hn
      | some res =>
        cases res with
        | fatal es0 =>
          cases h
          rcases hn with hn | ⟨_, _, hn⟩
          · cases hn
            exact ⟨[], l, .nil, by simp, _, .inl hp⟩
          · cases hn
        | ok t =>
          dsimp only at h
          split at h
          · rename_i ht
            obtain ⟨ts, l2, h1, h2, h3⟩ := ih h
            exact ⟨t :: ts, l2, .cons hp h1, by simpa using ⟨ht, h2⟩, h3⟩
          · cases h
            rcases hn with hn | ⟨_, _, hn⟩ <;> cases hn
        | recovered t es0 =>
          have here : es = es0 → ∃ ts l1, Steps c l ts l1 ∧ (∀ t ∈ ts, t.type.isTrivia = true) ∧ Breaks c l1 es := by
            rintro rfl
            exact ⟨[], l, .nil, by simp, l1, .inr ⟨t, hp⟩⟩
          dsimp only at h
          split at h
          · rename_i ht
            have h0 := processNext_tail hp ht
            cases fuel with
            | zero => cases h
            | succ fuel =>
              unfold leadingLoop at h
              rw [processNext_nil h0] at h
              split at h
              · cases h
                rcases hn with hn | ⟨_, _, hn⟩ <;> cases hn
              · cases h
                rcases hn with hn | ⟨_, _, hn⟩
                · cases hn
                · cases hn; exact here rfl
          · cases h
            rcases hn with hn | ⟨_, _, hn⟩
            · cases hn
            · cases hn; exact here rfl

theorem processNextWithTrivia_breaks {l l' : Lx} {r : LexRes TokRef} {es : List TokErr} (h : processNextWithTrivia c l = .ok (some r, l'))
    (hr : r = .fatal es ∨ ∃ t, r = .recovered t es) : ∃ ts l1, Steps c l ts l1 ∧ (∀ t ∈ ts, t.type.isTrivia = true) ∧ Breaks c l1 es := by
  unfold processNextWithTrivia at h
  cases hp : leadingLoop c (l.src.rest.length + 1) l [] none with
  | panic => rw [hp] at h; cases h
  | diverge => rw [hp] at h; cases h
  | ok q =>
    obtain ⟨o, l1⟩ := q
    rw [hp] at h
    simp only [Outcome.bind] at h
    cases o with
    | done => cases h
    | fatal es0 =>
      cases h
      rcases hr with hr | ⟨_, hr⟩
      · cases hr; exact leadingLoop_breaks hp (.inl rfl)
      · cases hr
    | token ld t errors =>
      dsimp only at h
      cases hq : collectTrailing c (l1.src.rest.length + 1) l1 with
      | panic => rw [hq] at h; cases h
      | diverge => rw [hq] at h; cases h
      | ok q =>
        obtain ⟨ts, l2⟩ := q
        rw [hq] at h
        cases errors with
        | none =>
          cases h
          rcases hr with hr | ⟨_, hr⟩ <;> cases hr
        | some es0 =>
          cases h
          rcases hr with hr | ⟨_, hr⟩
          · cases hr
          · cases hr; exact leadingLoop_breaks hp (.inr ⟨_, _, rfl⟩)

theorem lexRest_breaks (hc : c.Good) {src : Text} {fuel : Nat} {pre : Text} {l : Lx} {rs : List (LexRes TokRef)} {e : TokErr} {es : List TokErr} (hat : At src pre l.src)
    (hinv : l.sentEof = true → l.src.rest = []) (h : lexRest c fuel l = .ok rs) (he : errorsOf rs = e :: es) :
    ∃ (us : List TokRef) (ts : List Token) (l1 : Lx) (es' more : List TokErr), us.map .ok <+: rs ∧ Steps c l (us.flatMap TokRef.flat ++ ts) l1 ∧
      (∀ t ∈ ts, t.type.isTrivia = true) ∧ Breaks c l1 es' ∧ e :: es = es' ++ more ∧ es' ≠ [] := by
  induction fuel generalizing l pre rs with
  | zero => cases h
  | succ fuel ih =>
    unfold lexRest at h
    rcases processNextWithTrivia_spec hc hat hinv with ⟨hp, -⟩ | ⟨o, l1, w, hp, hr, hinv1, hspec⟩
    · rw [hp] at h; cases h
    · rw [hp] at h
      simp only [Outcome.bind] at h
      cases o with
      | none => cases h; cases he
      | some r =>
        dsimp only at h
        cases hq : lexRest c fuel l1 with
        | panic => rw [hq] at h; cases h
        | diverge => rw [hq] at h; cases h
        | ok rs1 =>
          rw [hq] at h
          cases h
          rw [errorsOf_cons] at he
          have stop : ∀ es', (r = .fatal es' ∨ ∃ t, r = .recovered t es') → es' ≠ [] → errorsOf [r] = es' →
              ∃ (us : List TokRef) (ts : List Token) (l1 : Lx) (es' more : List TokErr), us.map .ok <+: (r :: rs1) ∧ Steps c l (us.flatMap TokRef.flat ++ ts) l1 ∧
                (∀ t ∈ ts, t.type.isTrivia = true) ∧ Breaks c l1 es' ∧ e :: es = es' ++ more ∧ es' ≠ [] := by
            intro es' h1 h2 h3
            obtain ⟨ts, l2, g1, g2, g3⟩ := processNextWithTrivia_breaks hp h1
            exact ⟨[], ts, l2, es', _, List.nil_prefix, g1, g2, g3, by rw [← h3]; exact he.symm, h2⟩
          cases r with
          | fatal es' => exact stop es' (.inl rfl) hspec.1 (by simp [errorsOf])
          | recovered t es' => exact stop es' (.inr ⟨t, rfl⟩) hspec.2.1 (by simp [errorsOf])
          | ok u =>
            obtain ⟨us, ts, l2, es', more, g1, g2, g3⟩ := ih (hat.reads hr) hinv1 hq (by simpa [errorsOf] using he)
            refine ⟨u :: us, ts, l2, es', more, ?_, ?_, g3⟩
            · rw [List.map_cons]
              exact (List.prefix_cons_inj _).2 g1
            · rw [List.flatMap_cons, List.append_assoc]
              exact (processNextWithTrivia_steps hp).append g2

theorem Breaks.rest {l : Lx} {es : List TokErr} (h : Breaks c l es) : l.src.rest ≠ [] := by
  intro h0
  obtain ⟨l', h | ⟨t, h⟩⟩ := h
  all_goals
    rw [processNext_nil h0] at h
    split at h <;> cases h

theorem Breaks.stuck (hc : c.Good) {l : Lx} {es : List TokErr} (h : Breaks c l es) : Stuck c l.braces l.src.rest := by
  refine ⟨h.rest, fun ty rest' bs' h1 h2 => ?_⟩
  have h3 := (step_iff hc h.rest).2 ⟨h1, h2⟩
  obtain ⟨l', h | ⟨t, h⟩⟩ := h
  all_goals
    rw [h] at h3
    cases h3

theorem Breaks.start (hc : c.Good) {l : Lx} {es : List TokErr} (h : Breaks c l es) : ∃ e, es = [e] ∧ e.range.1 = l.src.pos := by
  have h0 := h.rest
  cases hr : l.src.rest with
  | nil => exact absurd hr h0
  | cons ch r =>
    obtain ⟨l', h | ⟨t, h⟩⟩ := h
    · obtain ⟨res, g1, ⟨w, -, -, g2⟩, -⟩ := processNext_cons hc hr h
      cases g1
      obtain ⟨e, rfl, g2⟩ := g2
      exact ⟨e, rfl, by rw [g2]⟩
    · obtain ⟨res, g1, ⟨w, -, -, g2⟩, -⟩ := processNext_cons hc hr h
      cases g1
      obtain ⟨-, -, -, e, rfl, g2⟩ := g2
      exact ⟨e, rfl, by rw [g2]⟩

theorem begins_of_steps (hc : c.Good) {l l' : Lx} {ts : List Token} (h : Steps c l ts l') {src pre : Text} (hat : At src pre l.src) (h0 : l'.src.rest ≠ []) :
    MadeOf c l.braces l.src.rest (ts.map Token.type) l'.braces l'.src.rest ∧ At src (pre ++ written (ts.map Token.type)) l'.src := by
  induction h generalizing pre with
  | nil => exact ⟨.nil, by simpa [written] using hat⟩
  | @cons l l1 l' t ts h1 h2 ih =>
    rcases step_ok hc h1 with ⟨g1, g2, g3, rfl⟩ | ⟨g1, g2, g3, g4⟩
    · obtain ⟨-, rfl⟩ := h2.ended ⟨rfl, g1⟩
      exact absurd g1 h0
    · cases hr : l.src.rest with
      | nil => exact absurd hr g1
      | cons ch r =>
        obtain ⟨res, e1, ⟨w, -, hw, hk⟩, -⟩ := processNext_cons hc hr h1
        cases e1
        have e2 : t.type.display = w := hk.2.2.1
        subst e2
        obtain ⟨k1, k2⟩ := ih (hat.reads hw) h0
        refine ⟨?_, by simpa [written] using k2⟩
        rw [← hr, g3]
        exact .token g4 k1

theorem begins_text {bs bs' : List BraceType} {text rest : Text} {tys : List TokenType} (h : MadeOf c bs text tys bs' rest) : text = written tys ++ rest := by
  induction h with
  | nil => rfl
  | token _ _ ih => rw [ih]; simp [written]

/-- The place is unique. -/
theorem stuck_unique (hc : c.Good) {bs b1 b2 : List BraceType} {text r1 r2 : Text} {tys1 tys2 : List TokenType} (h : MadeOf c bs text tys1 b1 r1) (hs : Stuck c b1 r1)
    (h' : MadeOf c bs text tys2 b2 r2) (hs' : Stuck c b2 r2) : tys1 = tys2 ∧ b1 = b2 ∧ r1 = r2 := by
  induction h generalizing tys2 with
  | nil =>
    cases h' with
    | nil => exact ⟨rfl, rfl, rfl⟩
    | token g _ => exact absurd g (hs.2 _ _ _ rfl)
  | @token bs bb b1 ty rest1 r1 tys g h ih =>
    generalize ht : ty.display ++ rest1 = text at h'
    cases h' with
    | nil => exact absurd g (hs'.2 _ _ _ ht.symm)
    | token g' h' =>
      obtain ⟨rfl, rfl, rfl⟩ := Proofs.Before.lexeme_only hc g g' ht
      obtain ⟨rfl, rfl, rfl⟩ := ih hs h'
      exact ⟨rfl, rfl, rfl⟩

/-- A text that gets stuck is not made of tokens. -/
theorem stuck_not_lexes (hc : c.Good) {bs b1 : List BraceType} {text r1 : Text} {tys tys' : List TokenType} (h : MadeOf c bs text tys b1 r1) (hs : Stuck c b1 r1) :
    ¬ Lexes c bs text tys' := by
  induction h generalizing tys' with
  | nil =>
    intro h'
    cases h' with
    | eof => exact hs.1 rfl
    | token g _ => exact hs.2 _ _ _ rfl g
  | @token bs bb b1 ty rest1 r1 tys g h ih =>
    intro h'
    generalize ht : ty.display ++ rest1 = text at h'
    cases h' with
    | eof => exact lexeme_ne g (List.append_eq_nil_iff.1 ht).1
    | token g' h' =>
      obtain ⟨rfl, rfl, rfl⟩ := Proofs.Before.lexeme_only hc g g' ht
      exact ih hs h'

theorem first_error_place (hc : c.Good) {source : Text} (hs : ¬ HasShebang source) {rs : List (LexRes TokRef)} (h : lexAll c source = .ok rs) {e : TokErr} {es : List TokErr}
    (he : errorsOf rs = e :: es) : ∃ (us : List TokRef) (tr : List TokenType) (bs : List BraceType) (rest : Text), us.map .ok <+: rs ∧ (∀ ty ∈ tr, ty.isTrivia = true) ∧
      MadeOf c [] source ((us.flatMap TokRef.flat).map Token.type ++ tr) bs rest ∧ Stuck c bs rest ∧
      e.range.1 = position (written ((us.flatMap TokRef.flat).map Token.type ++ tr)) := by
  have hat0 := At.new source
  have hinv0 : (Lx.new source).sentEof = true → (Lx.new source).src.rest = [] := by simp [Lx.new]
  have heq : lexAll c source = lexRest c (source.length + 3) (Lx.new source) := by
    unfold lexAll
    rw [processFirst_noShebang hs]
    exact first_eq hc hat0 hinv0
  rw [heq] at h
  obtain ⟨us, ts, l1, es', more, g1, g2, g3, g4, g5, g6⟩ := lexRest_breaks hc hat0 hinv0 h he
  obtain ⟨k1, k2⟩ := begins_of_steps hc g2 hat0 g4.rest
  obtain ⟨e', rfl, k3⟩ := g4.start hc
  cases g5
  refine ⟨us, ts.map Token.type, l1.braces, l1.src.rest, g1, by simpa using g3, ?_, g4.stuck hc, ?_⟩
  · rw [← List.map_append]
    exact k1
  · rw [k3, k2.2, List.nil_append, List.map_append]

/-! ### Tokens without errors, in any source -/

theorem lexRest_steps_of_mem (hc : c.Good) {src : Text} {fuel : Nat} {pre : Text} {l : Lx} {rs : List (LexRes TokRef)} {u : TokRef} (hat : At src pre l.src)
    (hinv : l.sentEof = true → l.src.rest = []) (h : lexRest c fuel l = .ok rs) (hu : .ok u ∈ rs) : ∃ pre l1 l2, At src pre l1.src ∧ Steps c l1 u.flat l2 := by
  induction fuel generalizing l pre rs with
  | zero => cases h
  | succ fuel ih =>
    unfold lexRest at h
    rcases processNextWithTrivia_spec hc hat hinv with ⟨hp, -⟩ | ⟨o, l1, w, hp, hr, hinv1, hspec⟩
    · rw [hp] at h; cases h
    · rw [hp] at h
      simp only [Outcome.bind] at h
      cases o with
      | none => cases h; cases hu
      | some r =>
        dsimp only at h
        cases hq : lexRest c fuel l1 with
        | panic => rw [hq] at h; cases h
        | diverge => rw [hq] at h; cases h
        | ok rs1 =>
          rw [hq] at h
          cases h
          rcases List.mem_cons.1 hu with rfl | hu
          · exact ⟨pre, l, l1, hat, processNextWithTrivia_steps hp⟩
          · exact ih (hat.reads hr) hinv1 hq hu

theorem steps_mem (hc : c.Good) {l l' : Lx} {ts : List Token} (h : Steps c l ts l') {src pre : Text} (hat : At src pre l.src) {t : Token} (ht : t ∈ ts) :
    t.type = .eof ∨ ∃ before rest bs bs', src = before ++ t.type.display ++ rest ∧ t.start = position before ∧ Lexeme c bs t.type rest bs' := by
  induction h generalizing pre with
  | nil => cases ht
  | @cons l l1 l' u ts h1 h2 ih =>
    rcases step_ok hc h1 with ⟨g1, g2, g3, rfl⟩ | ⟨g1, g2, g3, g4⟩
    · obtain ⟨rfl, -⟩ := h2.ended ⟨rfl, g1⟩
      simp only [List.mem_singleton] at ht
      subst ht
      exact .inl g3
    · cases hr : l.src.rest with
      | nil => exact absurd hr g1
      | cons ch r =>
        obtain ⟨res, e1, ⟨w, -, hw, hk⟩, -⟩ := processNext_cons hc hr h1
        cases e1
        rcases List.mem_cons.1 ht with rfl | ht
        · exact .inr ⟨pre, l1.src.rest, l.braces, l1.braces, by rw [List.append_assoc, ← g3]; exact hat.1, by rw [hk.1]; exact hat.2, g4⟩
        · exact ih (hat.reads hw) ht

theorem ok_tokens (hc : c.Good) {source : Text} (hs : ¬ HasShebang source) {rs : List (LexRes TokRef)} (h : lexAll c source = .ok rs) {u : TokRef} (hu : .ok u ∈ rs) {t : Token}
    (ht : t ∈ u.flat) :
    t.type = .eof ∨ ∃ before rest bs bs', source = before ++ t.type.display ++ rest ∧ t.start = position before ∧ Lexeme c bs t.type rest bs' := by
  have hat0 := At.new source
  have hinv0 : (Lx.new source).sentEof = true → (Lx.new source).src.rest = [] := by simp [Lx.new]
  have heq : lexAll c source = lexRest c (source.length + 3) (Lx.new source) := by
    unfold lexAll
    rw [processFirst_noShebang hs]
    exact first_eq hc hat0 hinv0
  rw [heq] at h
  obtain ⟨pre, l1, l2, g1, g2⟩ := lexRest_steps_of_mem hc hat0 hinv0 h hu
  exact steps_mem hc g2 g1 ht

end FM
