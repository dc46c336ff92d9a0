import Verif.Proofs.StreamAll
import Verif.Proofs.RespaceFill
import Verif.Spec.Nesting

/-! Helper lemmas: the brace stack of the tokenizer. -/

namespace FM
open Spec

variable {c : Cfg} {st : Position} {s : Src}

/-- A reader that recovers no section of an interpolated string, and trivia only at the end of the source. -/
def NoSection (r : ReadRes) : Prop := ∀ t es, r.1 = .recovered t es → (∀ x k, t.type ≠ .interpolated x k) ∧ (t.type.isTrivia = true → r.2.rest = [])

theorem NoSection.create {ty : TokenType} : NoSection (FM.create st ty s) := by intro t es h; cases h

theorem NoSection.sym {y : Symbol} : NoSection (symTok st y s) := by intro t es h; cases h

theorem NoSection.recovered {ty : TokenType} {es : List TokErr} (h : ∀ x k, ty ≠ .interpolated x k) (h2 : ty.isTrivia = true → es ≠ [] → s.rest = []) : NoSection (createRecovered st ty es s) := by
  intro t es' h'
  unfold createRecovered LexRes.new at h'
  dsimp only at h'
  split at h'
  · cases h'
  · rename_i hne
    cases h'
    exact ⟨h, fun ht => h2 ht (by simpa using hne)⟩

theorem NoSection.ite {P : Prop} [Decidable P] {A B : ReadRes} (h : NoSection A) (h' : NoSection B) : NoSection (if P then A else B) := by
  split
  · exact h
  · exact h'

theorem eatInvalidNumber_noSection (r : List Char) (p : Position) (n : Text) : NoSection (eatInvalidNumber st r p n) := by
  induction r generalizing p n with
  | nil => intro t es h; cases h; exact ⟨nofun, nofun⟩
  | cons ch r ih =>
    unfold eatInvalidNumber
    refine .ite ?_ (ih _ _)
    intro t es h; cases h; exact ⟨nofun, nofun⟩

theorem exponentLoop_noSection (r : List Char) (p : Position) (n : Text) : NoSection (exponentLoop c st r p n) := by
  induction r generalizing p n with
  | nil => exact .create
  | cons ch r ih => exact .ite (ih _ _) .create

theorem exponentDigits_noSection (r : List Char) (p : Position) (n : Text) : NoSection (exponentDigits c st r p n) :=
  .ite (eatInvalidNumber_noSection _ _ _) (exponentLoop_noSection _ _ _)

theorem readExponentPart_noSection (m : Char) (r : List Char) (p : Position) (n : Text) : NoSection (readExponentPart c st m r p n) := by
  cases r with
  | nil => exact exponentDigits_noSection _ _ _
  | cons ch r => exact .ite (exponentDigits_noSection _ _ _) (exponentDigits_noSection _ _ _)

theorem readLuajitSuffix_noSection (r : List Char) (p : Position) (n : Text) : NoSection (readLuajitSuffix st r p n) := by
  induction r generalizing p n with
  | nil => exact .create
  | cons ch r ih =>
    unfold readLuajitSuffix
    refine .ite (.ite (eatInvalidNumber_noSection _ _ _) (ih _ _)) (.ite ?_ (.ite .create (eatInvalidNumber_noSection _ _ _)))
    cases r with
    | nil => exact eatInvalidNumber_noSection _ _ _
    | cons ch' r' => exact .ite .create (eatInvalidNumber_noSection _ _ _)

theorem numberLoop_noSection (r : List Char) (p : Position) (n : Text) (hit : Bool) : NoSection (numberLoop c st r p n hit) := by
  induction r generalizing p n hit with
  | nil => exact .create
  | cons ch r ih =>
    unfold numberLoop
    exact .ite (ih _ _ _) (.ite (.ite (eatInvalidNumber_noSection _ _ _) (ih _ _ _)) (.ite (readExponentPart_noSection _ _ _ _)
      (.ite (readLuajitSuffix_noSection _ _ _) .create)))

theorem finishPrefixed_noSection (n : Text) : NoSection (finishPrefixed st n s) :=
  .ite (eatInvalidNumber_noSection _ _ _) .create

theorem hexLoop_noSection (r : List Char) (p : Position) (n : Text) (hit : Bool) : NoSection (hexLoop c st r p n hit) := by
  induction r generalizing p n hit with
  | nil => exact finishPrefixed_noSection _
  | cons ch r ih =>
    unfold hexLoop
    exact .ite (ih _ _ _) (.ite (ih _ _ _) (.ite (.ite (eatInvalidNumber_noSection _ _ _) (ih _ _ _))
      (.ite (.ite (eatInvalidNumber_noSection _ _ _) (readExponentPart_noSection _ _ _ _))
      (.ite (readLuajitSuffix_noSection _ _ _) (finishPrefixed_noSection _)))))

theorem binaryLoop_noSection (r : List Char) (p : Position) (n : Text) : NoSection (binaryLoop c st r p n) := by
  induction r generalizing p n with
  | nil => exact finishPrefixed_noSection _
  | cons ch r ih =>
    unfold binaryLoop
    exact .ite (ih _ _) (.ite (readLuajitSuffix_noSection _ _ _) (finishPrefixed_noSection _))

theorem readZero_noSection : NoSection (readZero c st s) := by
  unfold readZero
  split
  · exact .ite (hexLoop_noSection _ _ _ _) (.ite (binaryLoop_noSection _ _ _) (numberLoop_noSection _ _ _ _))
  · exact numberLoop_noSection _ _ _ _

theorem readLeftBracket_noSection : NoSection (readLeftBracket st s) := by
  unfold readLeftBracket
  refine .ite ?_ .create
  split
  · exact .create
  · exact .recovered nofun nofun
  · exact .create

theorem commentToken_noSection {r : TokenType × Bool × Src} (h : ∀ x k, r.1 ≠ .interpolated x k) (h2 : r.2.1 = true → r.2.2.rest = []) :
    NoSection (commentToken st r) := by
  refine .recovered h fun _ hne => ?_
  split at hne
  · rename_i e; exact h2 e
  · exact absurd rfl hne

theorem readComment_noSection : ∀ x k, (readComment s).1 ≠ .interpolated x k := by
  intro x k
  unfold readComment
  dsimp only
  split
  · split <;> nofun
  · nofun

theorem readComment_unclosed : (readComment s).2.1 = true → (readComment s).2.2.rest = [] := by
  unfold readComment
  dsimp only
  split
  · rename_i s' _
    have h := readMultiLineBody_spec s'
    split
    · nofun
    · rename_i n body s'' e
      rw [e] at h
      rcases h with ⟨_, _, h, _⟩ | ⟨_, _, _, _, h⟩ | ⟨_, h, _⟩
      · cases h
      · exact fun _ => h
      · cases h
    · nofun
  · nofun

theorem cStyleLoop_unclosed (r : List Char) (p : Position) (acc : Text) : (cStyleLoop r p acc).2.1 = true → (cStyleLoop r p acc).2.2.rest = [] := by
  induction r generalizing p acc with
  | nil => exact fun _ => rfl
  | cons x r ih =>
    unfold cStyleLoop
    cases r with
    | nil => exact ih _ _
    | cons y r =>
      dsimp only
      split
      · nofun
      · exact ih _ _

theorem readMinusRest_noSection : NoSection (readMinusRest st s) := by
  unfold readMinusRest
  split
  · exact commentToken_noSection readComment_noSection readComment_unclosed
  · exact .sym

theorem readPlain_noSection (ch : Char) : NoSection (readPlain c st ch s) := by
  unfold readPlain
  refine .ite (by unfold readIdent; exact .create) ?_
  refine .ite (by intro t es h; cases h) ?_
  refine .ite readZero_noSection ?_
  refine .ite (numberLoop_noSection _ _ _ _) ?_
  refine .ite (by unfold readEqual; split <;> exact .sym) ?_
  refine .ite ?_ ?_
  · unfold readTilde
    split
    · exact .sym
    · exact .ite .sym (by intro t es h; cases h)
  refine .ite (by intro t es h; cases h) ?_
  refine .ite .sym ?_
  refine .ite .sym ?_
  refine .ite readLeftBracket_noSection ?_
  refine .ite .sym ?_
  have gated : ∀ {vs k y z}, NoSection (readGated c vs k y z st s) := by
    intro vs k y z
    unfold readGated
    refine .ite ?_ .sym
    split <;> exact .sym
  have angle : ∀ {k x y z w}, NoSection (readAngle c k x y z w st s) := by
    intro k x y z w
    unfold readAngle
    dsimp only
    have rest : ∀ s : Src, NoSection (match s.consume '=' with | (true, s) => symTok st z s | (false, s) => symTok st w s) := by
      intro s
      split <;> exact .sym
    refine .ite ?_ (rest s)
    split
    · refine .ite ?_ .sym
      split <;> exact .sym
    · exact rest _
  refine .ite gated ?_
  refine .ite .sym ?_
  refine .ite gated ?_
  refine .ite gated ?_
  refine .ite ?_ ?_
  · unfold readSlash
    refine .ite ?_ .sym
    split
    · refine .ite ?_ .sym
      split <;> exact .sym
    · split
      · exact .sym
      · split
        · exact commentToken_noSection nofun (cStyleLoop_unclosed _ _ _)
        · exact .sym
  refine .ite gated ?_
  refine .ite gated ?_
  refine .ite .sym ?_
  refine .ite angle ?_
  refine .ite angle ?_
  refine .ite ?_ ?_
  · unfold readDot
    split
    · split
      · exact .sym
      · refine .ite ?_ .sym
        split <;> exact .sym
    · exact .ite (numberLoop_noSection _ _ _ _) .sym
  refine .ite ?_ ?_
  · unfold readMinus
    refine .ite ?_ readMinusRest_noSection
    split
    · exact .sym
    · refine .ite ?_ readMinusRest_noSection
      split
      · exact .sym
      · exact readMinusRest_noSection
  refine .ite .sym ?_
  unfold readOther
  exact .ite .sym (.ite .sym (.ite .sym (.ite .sym (.ite .sym (.ite .sym (.ite .sym (by intro t es h; cases h)))))))

/-- The effect of a token on the stack of open braces. -/
def push (bs : List BraceType) : TokenType → List BraceType
  | .symbol .leftBrace => .normal :: bs
  | .symbol .rightBrace => bs.tail
  | .interpolated _ .begin => .interpolatedString :: bs
  | .interpolated _ .end_ => bs.tail
  | _ => bs

/-- A token the tokenizer can read with this stack. -/
def Can (bs : List BraceType) (ty : TokenType) : Prop :=
  (∀ x k, ty = .interpolated x k → k = .middle ∨ k = .end_ → bs.head? = some .interpolatedString) ∧
  (ty = .symbol .rightBrace → bs.head? ≠ some .interpolatedString)

theorem push_neutral {bs : List BraceType} {ty : TokenType} (h : Neutral ty) : push bs ty = bs := by
  unfold push
  split
  · exact absurd rfl h.1
  · exact absurd rfl h.2
  · cases h
  · cases h
  · rfl

theorem can_neutral {bs : List BraceType} {ty : TokenType} (h : Neutral ty) : Can bs ty := by
  refine ⟨?_, ?_⟩
  · rintro x k rfl hk
    cases h
    rcases hk with hk | hk <;> cases hk
  · rintro rfl
    exact absurd rfl h.2

theorem neutral_trivia {ty : TokenType} (h : ty.isTrivia = true) : Neutral ty := by
  cases ty <;> first | trivial | cases h

def tokenOf? {α : Type} : LexRes α → Option α
  | .ok t => some t
  | .recovered t _ => some t
  | .fatal _ => none

theorem processNext_braces (hc : c.Good) (hlu : c.luau = true) {l l' : Lx} {o : Option (LexRes Token)} (h : processNext c l = .ok (o, l')) :
    match o.bind tokenOf? with
    | some t => l'.braces = push l.braces t.type ∧ Can l.braces t.type
    | none => l'.braces = l.braces := by
  have neutral : ∀ {t : Token}, Neutral t.type → l'.braces = l.braces → l'.braces = push l.braces t.type ∧ Can l.braces t.type := by
    intro t ht hb
    exact ⟨by rw [push_neutral ht, hb], can_neutral ht⟩
  obtain ⟨⟨rest, p⟩, b, bs⟩ := l
  cases rest with
  | nil =>
    rw [processNext_nil rfl] at h
    split at h
    · cases h; rfl
    · cases h; exact neutral trivial rfl
  | cons ch r =>
    have hcons := fun h => processNext_cons hc (l := ⟨⟨ch :: r, p⟩, b, bs⟩) (ch := ch) (r := r) rfl (h : _ = Outcome.ok (o, l'))
    have h0 := h
    unfold processNext at h
    dsimp only at h
    split at h
    · rename_i hq
      split at h
      · unfold readSection at h
        split at h
        · cases h; exact ⟨rfl, by refine ⟨?_, nofun⟩; rintro x k ⟨⟩ (h | h) <;> cases h⟩
        · cases h; exact neutral rfl rfl
        · cases h; exact neutral rfl rfl
      · cases e : readString c p ch ⟨r, p.advance ch⟩ with
        | panic => rw [e] at h; cases h
        | diverge => rw [e] at h; cases h
        | ok res =>
          rw [e] at h
          simp only [Outcome.bind, Lx.finish, Outcome.ok.injEq, Prod.mk.injEq] at h
          obtain ⟨rfl, rfl⟩ := h
          unfold readString at e
          split at e
          · cases e
          · cases e
            generalize hz : (createRecovered _ _ _ _).1 = z
            have : ∀ t, tokenOf? z = some t → Neutral t.type := by
              intro t ht
              subst hz
              unfold createRecovered LexRes.new at ht
              dsimp only at ht
              split at ht <;> (cases ht; trivial)
            cases z with
            | ok t => exact neutral (this t rfl) rfl
            | recovered t es => exact neutral (this t rfl) rfl
            | fatal es => rfl
    · split at h
      · simp only [Lx.finish, Outcome.ok.injEq, Prod.mk.injEq] at h
        obtain ⟨rfl, rfl⟩ := h
        exact ⟨rfl, nofun, nofun⟩
      · split at h
        · split at h
          · rename_i hin
            unfold readSection at h
            split at h
            · cases h
              refine ⟨?_, fun _ _ _ _ => hin, nofun⟩
              cases bs with
              | nil => cases hin
              | cons x bs => cases hin; rfl
            · cases h; exact ⟨rfl, fun _ _ _ _ => hin, nofun⟩
            · cases h; exact ⟨rfl, fun _ _ _ _ => hin, nofun⟩
          · rename_i hin
            simp only [Lx.finish, Outcome.ok.injEq, Prod.mk.injEq] at h
            obtain ⟨rfl, rfl⟩ := h
            exact ⟨rfl, nofun, fun _ => hin⟩
        · rename_i h1 h2 h3
          simp only [Lx.finish, Outcome.ok.injEq, Prod.mk.injEq] at h
          obtain ⟨rfl, rfl⟩ := h
          obtain ⟨res, hres, ⟨w, hw, hr, hg⟩, _⟩ := hcons h0
          simp only [Option.some.injEq] at hres
          have hns : ∀ t es, (readPlain c p ch ⟨r, p.advance ch⟩).1 = .recovered t es → ∀ x k, t.type ≠ .interpolated x k :=
            fun t es h => (readPlain_noSection ch t es h).1
          dsimp only at hg
          generalize (readPlain c p ch ⟨r, p.advance ch⟩).1 = z at *
          subst hres
          cases z with
          | fatal es => rfl
          | recovered t es =>
            refine neutral ?_ rfl
            have h4 := hg.2.2.1
            have h5 := hns t es rfl
            cases e : t.type with
            | interpolated x k => exact absurd e (h5 x k)
            | symbol y => rw [e] at h4; cases h4
            | _ => trivial
          | ok t =>
            refine neutral ?_ rfl
            have h4 := hg.2.2.1
            have h5 := hr.1
            have first : ∀ {k : Char} {w' : Text}, w = k :: w' → ch = k := by
              rintro k w' rfl
              simp at h5
              exact h5.1
            simp only [Token.display] at h4
            cases e : t.type with
            | interpolated x k =>
              rw [e] at h4
              cases k <;> simp only [TokenType.display] at h4
              · exact absurd (.inr (.inr (first h4.symm))) h1
              · exact absurd (first h4.symm) h3
              · exact absurd (first h4.symm) h3
              · exact absurd (.inr (.inr (first h4.symm))) h1
            | symbol y =>
              refine ⟨?_, ?_⟩
              · rintro rfl
                rw [e] at h4
                exact h2 (first h4.symm)
              · rintro rfl
                rw [e] at h4
                exact h3 (first h4.symm)
            | _ => trivial

theorem processNext_recovered {l l' : Lx} {t : Token} {es : List TokErr} (h : processNext c l = .ok (some (.recovered t es), l')) :
    (∀ x, t.type ≠ .interpolated x .begin) ∧ (t.type.isTrivia = true → l'.src.rest = []) := by
  obtain ⟨⟨rest, p⟩, b, bs⟩ := l
  cases rest with
  | nil =>
    rw [processNext_nil rfl] at h
    split at h <;> cases h
  | cons ch r =>
    unfold processNext at h
    dsimp only at h
    split at h
    · split at h
      · unfold readSection at h
        split at h <;> cases h
        exact ⟨nofun, nofun⟩
      · cases e : readString c p ch ⟨r, p.advance ch⟩ with
        | panic => rw [e] at h; cases h
        | diverge => rw [e] at h; cases h
        | ok res =>
          rw [e] at h
          simp only [Outcome.bind, Lx.finish, Outcome.ok.injEq, Prod.mk.injEq, Option.some.injEq] at h
          obtain ⟨h1, rfl⟩ := h
          unfold readString at e
          split at e
          · cases e
          · cases e
            have key : ∀ {lit : Text} {n : Nat} {q : Quote} {es' : List TokErr} {s : Src}, NoSection (createRecovered p (.stringLiteral lit n q) es' s) :=
              .recovered nofun nofun
            have := key t es h1
            exact ⟨fun x => this.1 x _, this.2⟩
    · split at h
      · cases h
      · split at h
        · split at h
          · split at h
            · unfold readSection at h
              split at h <;> cases h
              exact ⟨nofun, nofun⟩
            · cases h
          · cases h
        · simp only [Lx.finish, Outcome.ok.injEq, Prod.mk.injEq, Option.some.injEq] at h
          obtain ⟨h1, rfl⟩ := h
          have := readPlain_noSection ch t es h1
          exact ⟨fun x => this.1 x _, this.2⟩

end FM
