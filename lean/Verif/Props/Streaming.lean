import Verif.Proofs.StreamFacts
import Verif.Spec.Cursor

/-!
# C08: the streaming interface of `Lexer` is a cursor on the token list
-/

namespace FM.Props
open FM FM.Spec

/-- Answers of a real `Lexer` to a sequence of calls, and the lexer afterwards. -/
def runCalls (c : Cfg) : Lexer → List Call → Outcome (List (Option (LexRes TokRef)) × Lexer)
  | x, [] => .ok ([], x)
  | x, .current :: cs => (runCalls c x cs).bind fun (os, y) => .ok (x.current :: os, y)
  | x, .peek :: cs => (runCalls c x cs).bind fun (os, y) => .ok (x.peek :: os, y)
  | x, .consume :: cs => (x.consume c).bind fun (o, x') => (runCalls c x' cs).bind fun (os, y) => .ok (o :: os, y)

/-- Outcomes of `lexRest` do not depend on the fuel once it suffices. -/
theorem lexRest_mono {c : Cfg} : ∀ {f g : Nat} {l : Lx}, f ≤ g → lexRest c f l ≠ .diverge →
    lexRest c g l = lexRest c f l := by
  intro f
  induction f with
  | zero => intro g l _ h; exact absurd rfl h
  | succ f ih =>
    intro g l hg h
    cases g with
    | zero => omega
    | succ g =>
      unfold lexRest at h ⊢
      cases hp : processNextWithTrivia c l with
      | panic => rfl
      | diverge => rfl
      | ok a =>
        rw [hp] at h
        obtain ⟨o, l'⟩ := a
        cases o with
        | none => rfl
        | some r =>
          simp only [Outcome.bind] at h ⊢
          rw [ih (by omega)]
          intro h'
          rw [h'] at h
          exact h rfl

/-- The results still to come from a state. -/
def Lexed (c : Cfg) (l : Lx) (rs : List (LexRes TokRef)) : Prop :=
  (∃ fuel, lexRest c fuel l = .ok rs) ∧ (∃ src pre, At src pre l.src) ∧ (l.sentEof = true → l.src.rest = [])

theorem Lexed.length {c : Cfg} (hc : c.Good) {l : Lx} {rs : List (LexRes TokRef)} (h : Lexed c l rs) :
    rs.length ≤ l.src.rest.length + 1 := by
  obtain ⟨⟨f, hf⟩, ⟨src, pre, hat⟩, hinv⟩ := h
  rcases lexRest_spec hc (l.src.rest.length + 2) pre l hat hinv (by split <;> omega) with ⟨hp, _⟩ | ⟨rs', h1, _, h2⟩
  · have h1 := lexRest_mono (c := c) (l := l) (Nat.le_max_left f (l.src.rest.length + 2)) (by rw [hf]; simp)
    have h2 := lexRest_mono (c := c) (l := l) (Nat.le_max_right f (l.src.rest.length + 2)) (by rw [hp]; simp)
    rw [h1, hf, hp] at h2
    simp at h2
  · have h3 := lexRest_mono (c := c) (l := l) (Nat.le_max_left f (l.src.rest.length + 2)) (by rw [hf]; simp)
    have h4 := lexRest_mono (c := c) (l := l) (Nat.le_max_right f (l.src.rest.length + 2)) (by rw [h1]; simp)
    rw [h3, hf, h1] at h4
    simp only [Outcome.ok.injEq] at h4
    subst h4
    split at h2 <;> omega

/-- One more call of `process_next_with_trivia`. -/
theorem Lexed.next {c : Cfg} (hc : c.Good) {l : Lx} {rs : List (LexRes TokRef)} (h : Lexed c l rs) :
    ∃ l', processNextWithTrivia c l = .ok (rs[0]?, l') ∧ Lexed c l' rs.tail := by
  obtain ⟨⟨f, hf⟩, ⟨src, pre, hat⟩, hinv⟩ := h
  cases f with
  | zero => simp [lexRest] at hf
  | succ f =>
    unfold lexRest at hf
    rcases processNextWithTrivia_spec hc hat hinv with ⟨hp, _⟩ | ⟨o, l1, w, h1, hr, hinv1, hspec⟩
    · rw [hp] at hf; simp at hf
    · rw [h1] at hf ⊢
      simp only [Outcome.bind] at hf
      cases o with
      | none =>
        simp only [Outcome.ok.injEq] at hf
        subst hf
        obtain ⟨_, rfl⟩ := hspec
        refine ⟨l1, rfl, ⟨1, ?_⟩, ⟨src, pre, hat⟩, hinv⟩
        unfold lexRest
        rw [h1]
        rfl
      | some r =>
        simp only at hf
        cases hl : lexRest c f l1 with
        | panic => rw [hl] at hf; simp at hf
        | diverge => rw [hl] at hf; simp at hf
        | ok ts =>
          rw [hl] at hf
          simp only [Outcome.ok.injEq] at hf
          subst hf
          exact ⟨l1, rfl, ⟨f, hl⟩, ⟨src, _, hat.reads hr⟩, hinv1⟩

/-- The lexer `x` stands before the list `rs`. -/
def Cur (c : Cfg) (x : Lexer) (rs : List (LexRes TokRef)) : Prop :=
  x.next = rs[0]? ∧ x.peeked = rs[1]? ∧ Lexed c x.lx rs.tail.tail

theorem Cur.consume {c : Cfg} (hc : c.Good) {x : Lexer} {rs : List (LexRes TokRef)} (h : Cur c x rs) :
    ∃ x', x.consume c = .ok (rs[0]?, x') ∧ Cur c x' rs.tail := by
  obtain ⟨h1, h2, h3⟩ := h
  unfold Lexer.consume
  rw [h1]
  cases rs with
  | nil => exact ⟨x, rfl, h1, h2, h3⟩
  | cons a rs =>
    obtain ⟨l', h4, h5⟩ := h3.next hc
    simp only [List.getElem?_cons_zero, h4, Outcome.bind]
    refine ⟨_, rfl, ?_, ?_, ?_⟩
    · show x.peeked = _
      rw [h2]; cases rs <;> simp
    · show _ = _
      cases rs <;> simp
    · exact h5

theorem Cur.calls {c : Cfg} (hc : c.Good) : ∀ (cs : List Call) {x : Lexer} {rs : List (LexRes TokRef)}, Cur c x rs →
    ∃ y, runCalls c x cs = .ok (cursor rs cs, y) ∧ Cur c y (remaining rs cs)
  | [], x, rs, h => ⟨x, rfl, by simpa [remaining] using h⟩
  | .current :: cs, x, rs, h => by
    obtain ⟨y, h1, h2⟩ := Cur.calls hc cs h
    refine ⟨y, ?_, by simpa [remaining] using h2⟩
    simp only [runCalls, h1, Outcome.bind, cursor, Lexer.current, h.1]
  | .peek :: cs, x, rs, h => by
    obtain ⟨y, h1, h2⟩ := Cur.calls hc cs h
    refine ⟨y, ?_, by simpa [remaining] using h2⟩
    simp only [runCalls, h1, Outcome.bind, cursor, Lexer.peek, h.2.1]
  | .consume :: cs, x, rs, h => by
    obtain ⟨x', h1, h2⟩ := h.consume hc
    obtain ⟨y, h3, h4⟩ := Cur.calls hc cs h2
    refine ⟨y, ?_, ?_⟩
    · simp only [runCalls, h1, h3, Outcome.bind, cursor]
    · simpa [remaining] using h4

theorem Cur.collect {c : Cfg} (hc : c.Good) : ∀ (fuel : Nat) {x : Lexer} {rs : List (LexRes TokRef)}
    (ts : List Token) (es : List TokErr), Cur c x rs → rs.length < fuel →
    Lexer.collectLoop c fuel x ts es = .ok (ts ++ flatTokens rs, es ++ errorsOf rs) := by
  intro fuel
  induction fuel with
  | zero => intro x rs ts es _ h; omega
  | succ fuel ih =>
    intro x rs ts es h hl
    obtain ⟨x', h1, h2⟩ := h.consume hc
    unfold Lexer.collectLoop
    rw [h1]
    cases rs with
    | nil => simp [flatTokens, tokensOf, errorsOf]
    | cons r rs =>
      simp only [List.length_cons, List.tail_cons] at hl h2
      simp only [List.getElem?_cons_zero, Outcome.bind]
      cases r <;> simp only <;> rw [ih _ _ h2 (by omega)] <;>
        simp [flatTokens, tokensOf, errorsOf, TokRef.flat]

theorem new_cur {c : Cfg} (hc : c.Good) {source : Text} {rs : List (LexRes TokRef)} (h : lexAll c source = .ok rs) :
    ∃ x, Lexer.new c source = .ok x ∧ Cur c x rs := by
  unfold lexAll at h
  unfold Lexer.new
  -- the state after the first call satisfies the invariants
  have first : ∀ o l, processFirstWithTrivia c (Lx.new source) = .ok (o, l) →
      (∃ pre, At source pre l.src) ∧ (l.sentEof = true → l.src.rest = []) ∧ (o = none → l.sentEof = true) := by
    intro o l hf
    have pn : ∀ (pre : Text) (l0 : Lx), At source pre l0.src → (l0.sentEof = true → l0.src.rest = []) → ∀ o l,
        processNextWithTrivia c l0 = .ok (o, l) →
        (∃ pre, At source pre l.src) ∧ (l.sentEof = true → l.src.rest = []) ∧ (o = none → l.sentEof = true) := by
      intro pre l0 hat hinv o l hp
      rcases processNextWithTrivia_spec hc hat hinv with ⟨hp', _⟩ | ⟨o', l1, w, h1, hr, hinv1, hspec⟩
      · rw [hp'] at hp; simp at hp
      · rw [h1] at hp
        simp only [Outcome.ok.injEq, Prod.mk.injEq] at hp
        obtain ⟨rfl, rfl⟩ := hp
        refine ⟨⟨_, hat.reads hr⟩, hinv1, ?_⟩
        rintro rfl
        obtain ⟨h2, rfl⟩ := hspec
        exact h2
    unfold processFirstWithTrivia at hf
    split at hf
    · rename_i r hrest
      simp only at hf
      generalize hll : lineLoop r (((Lx.new source).src.pos.advance '#').advance '!') ['#', '!'] = ll at hf
      obtain ⟨w, e1, e2, _, _⟩ := lineLoop_spec' r (((Lx.new source).src.pos.advance '#').advance '!') ['#', '!']
      rw [hll] at e1 e2
      have hr0 : Reads (Lx.new source).src ('#' :: '!' :: w) ll.2 := by
        have : (Lx.new source).src = ⟨'#' :: '!' :: r, (Lx.new source).src.pos⟩ := by rw [← hrest]
        rw [this]
        exact .cons (.cons e2)
      have hat1 := (At.new source).reads hr0
      cases hp : processNextWithTrivia c ⟨ll.2, (Lx.new source).sentEof, (Lx.new source).braces⟩ with
      | panic => simp only [hp] at hf; simp at hf
      | diverge => simp only [hp] at hf; simp at hf
      | ok a =>
        simp only [hp] at hf
        obtain ⟨o1, l1⟩ := a
        obtain ⟨⟨pre, g1⟩, g2, g3⟩ := pn _ _ hat1 (by simp [Lx.new]) _ _ hp
        simp only [Outcome.bind] at hf
        split at hf
        · rename_i heq
          simp only [Prod.mk.injEq] at heq
          simp only [Outcome.ok.injEq, Prod.mk.injEq] at hf
          obtain ⟨rfl, rfl⟩ := heq
          obtain ⟨rfl, rfl⟩ := hf
          exact ⟨⟨pre, g1⟩, g2, by simp⟩
        · rename_i l2 _ heq
          simp only [Prod.mk.injEq] at heq
          obtain ⟨_, rfl⟩ := heq
          exact pn _ _ g1 g2 _ _ hf
    · exact pn _ _ (At.new source) (by simp [Lx.new]) _ _ hf
  cases hf : processFirstWithTrivia c (Lx.new source) with
  | panic => rw [hf] at h; simp at h
  | diverge => rw [hf] at h; simp at h
  | ok a =>
    obtain ⟨o, l⟩ := a
    obtain ⟨⟨pre, hat⟩, hinv, hnone⟩ := first o l hf
    rw [hf] at h
    simp only [Outcome.bind] at h ⊢
    -- the remaining results
    have rest : ∀ ts, lexRest c (source.length + 2) l = .ok ts →
        ∃ l', processNextWithTrivia c l = .ok (ts[0]?, l') ∧ Lexed c l' ts.tail :=
      fun ts hts => Lexed.next hc ⟨⟨_, hts⟩, ⟨_, _, hat⟩, hinv⟩
    cases hl : lexRest c (source.length + 2) l with
    | panic => cases o <;> simp [hl] at h
    | diverge => cases o <;> simp [hl] at h
    | ok ts =>
      obtain ⟨l', h1, h2⟩ := rest ts hl
      rw [h1]
      refine ⟨_, rfl, ?_⟩
      cases o with
      | none =>
        simp only [hl, Outcome.ok.injEq] at h
        subst h
        have hts : ts = [] := by
          have hs := hnone rfl
          unfold lexRest at hl
          rcases processNextWithTrivia_spec hc hat hinv with ⟨hp', _⟩ | ⟨o', l1, w, e1, hr, hinv1, hspec⟩
          · rw [hp'] at h1; simp at h1
          · have hw : w = [] := by
              have := hr.1
              rw [hinv hs] at this
              simp at this
              exact this.1
            rw [e1] at hl
            match o', hspec with
            | none, _ => simp at hl; exact hl
            | some (.ok t), hspec => rw [hspec.1] at hs; simp at hs
            | some (.recovered t es), hspec => rw [hspec.1] at hs; simp at hs
            | some (.fatal es), hspec => exact absurd hw hspec.2.2.2
        subst hts
        exact ⟨rfl, rfl, h2⟩
      | some r =>
        simp only [hl, Outcome.ok.injEq] at h
        subst h
        refine ⟨rfl, ?_, h2⟩
        cases ts <;> rfl

/-- **C08.** For every source that tokenizes, every sequence of `current`/`peek`/`consume` calls on a fresh
`Lexer` is answered as by a cursor on the one list `lexAll` of results, and `collect` after any such
sequence returns exactly the tokens (trivia included) and the errors of the remaining list. -/
theorem streaming_is_cursor {c : Cfg} (hc : c.Reachable) {source : Text} {rs : List (LexRes TokRef)}
    (h : lexAll c source = .ok rs) :
    ∃ x, Lexer.new c source = .ok x ∧ ∀ calls : List Call,
      ∃ y, runCalls c x calls = .ok (cursor rs calls, y) ∧
        y.collect c = .ok (.new (flatTokens (remaining rs calls)) (errorsOf (remaining rs calls))) := by
  obtain ⟨x, h1, h2⟩ := new_cur hc.good h
  refine ⟨x, h1, fun calls => ?_⟩
  obtain ⟨y, h3, h4⟩ := h2.calls hc.good calls
  refine ⟨y, h3, ?_⟩
  unfold Lexer.collect
  have hlen := h4.2.2.length hc.good
  rw [h4.collect hc.good]
  · simp
  · simp only [List.length_tail] at hlen
    omega

/-- Non-vacuity: a mixed sequence of calls over a source with an error. -/
example : ∃ rs, lexAll ⟨⟨false, false, false, false, false, false⟩, .lua51⟩ c!"a $ b" = .ok rs ∧
    cursor rs [.consume, .peek, .current, .consume, .consume, .consume, .consume] =
      [rs[0]?, rs[2]?, rs[1]?, rs[1]?, rs[2]?, rs[3]?, none] ∧ rs.length = 4 := ⟨_, rfl, rfl, rfl⟩

end FM.Props
