import Verif.Spec.Source
import Verif.Proofs.LexicalChain

/-! Helper lemmas for C09 and C54: which token trivia belongs to. -/

namespace FM
open Spec

variable {c : Cfg}

theorem endsLine_iff {ty : TokenType} : ty.endsLine = true ↔ EndsLine ty := by
  cases ty <;> simp [TokenType.endsLine, EndsLine]

/-- Trivia that starts with one of the characters of the lexer may follow a token, and no other. -/
theorem trails_iff {bs bs' : List BraceType} {ty : TokenType} {rest : Text} (h : Lexeme c bs ty rest bs') (ht : ty.isTrivia = true) :
    headIs startsTrailing (ty.display ++ rest) = true ↔ Trails ty := by
  cases ty with
  | whitespace t =>
    simp only [Trails, iff_true]
    rcases h.1 with rfl | ⟨first, mid, last, rfl, h1, -⟩
    · rfl
    · rcases h1 with rfl | rfl | rfl <;> rfl
  | singleLineComment t => simp only [Trails, iff_true]; rfl
  | multiLineComment n b => simp only [Trails, iff_true]; rfl
  | cStyleComment t =>
    simp only [Trails, iff_false]
    have : headIs startsTrailing ((TokenType.cStyleComment t).display ++ rest) = false := rfl
    rw [this]; simp
  | shebang t => exact h.elim
  | _ => cases ht

theorem trails_trivia {ty : TokenType} (h : Trails ty) : ty.isTrivia = true := by
  cases ty <;> first | rfl | exact h.elim

/-- The trailing trivia found is the rest of the line. -/
theorem collectTrailing_rest (hc : c.Good) {fuel : Nat} {l l' lE : Lx} {ts more : List Token}
    (h : collectTrailing c fuel l = .ok (ts, l')) (hm : Steps c l' more lE) : restOfLine (ts ++ more) = (ts, more) := by
  induction fuel generalizing l ts with
  | zero => cases h
  | succ fuel ih =>
    unfold collectTrailing at h
    split at h
    · rename_i hs
      cases hp : processNext c l with
      | panic => rw [hp] at h; cases h
      | diverge => rw [hp] at h; cases h
      | ok q =>
        obtain ⟨o, l1⟩ := q
        have hres := reset_eq (trailing_braces hs hp)
        rw [hp] at h
        simp only [Outcome.bind] at h
        have back : (∀ t, o = some (.ok t) → t.type.isTrivia = false) →
            (Outcome.ok (([] : List Token), ({ l1 with src := l.src, sentEof := l.sentEof } : Lx)) = .ok (ts, l')) →
            restOfLine (ts ++ more) = (ts, more) := by
          intro ho h
          rw [hres] at h
          cases h
          cases hm with
          | nil => rfl
          | @cons _ l2 _ t ts h1 _ =>
            rw [hp] at h1
            cases h1
            have : ¬ Trails t.type := fun h => by
              have := trails_trivia h
              rw [ho t rfl] at this
              cases this
            simp [restOfLine, this]
        cases o with
        | none => exact back (fun _ h => by cases h) h
        | some res =>
          cases res with
          | fatal es => exact back (fun _ h => by cases h) h
          | recovered t es => exact back (fun _ h => by cases h) h
          | ok t =>
            dsimp only at h
            split at h
            · rename_i htr
              have htl : Trails t.type := by
                rcases step_ok hc hp with ⟨-, -, g3, -⟩ | ⟨-, -, g3, g4⟩
                · rw [g3] at htr; cases htr
                · rw [g3] at hs
                  exact (trails_iff g4 htr).1 hs
              split at h
              · rename_i hend
                cases h
                simp [restOfLine, htl, endsLine_iff.1 hend]
              · rename_i hend
                cases hq : collectTrailing c fuel l1 with
                | panic => rw [hq] at h; cases h
                | diverge => rw [hq] at h; cases h
                | ok q =>
                  obtain ⟨ts1, l2⟩ := q
                  rw [hq] at h
                  cases h
                  have hend : ¬ EndsLine t.type := fun h => hend (endsLine_iff.2 h)
                  simp [restOfLine, htl, hend, ih hq]
            · rename_i htr
              exact back (fun _ h => by cases h; simpa using htr) h
    · rename_i hs
      cases h
      cases hm with
      | nil => rfl
      | @cons _ l2 _ t ts h1 _ =>
        have : ¬ Trails t.type := fun h => by
          rcases step_ok hc h1 with ⟨-, -, g3, -⟩ | ⟨-, -, g3, g4⟩
          · rw [g3] at h; exact h
          · rw [g3] at hs
            exact hs ((trails_iff g4 (trails_trivia h)).2 h)
        simp [restOfLine, this]

/-- The token of a reference was read by a step, and its trailing trivia is the rest of the line. -/
theorem withTrivia_rest (hc : c.Good) {l l' lE : Lx} {x : LexRes TokRef} {u : TokRef} {more : List Token}
    (h : processNextWithTrivia c l = .ok (some x, l')) (hx : x = .ok u ∨ ∃ es, x = .recovered u es) (hm : Steps c l' more lE) :
    restOfLine (u.trailing ++ more) = (u.trailing, more) := by
  unfold processNextWithTrivia at h
  cases hp : leadingLoop c (l.src.rest.length + 1) l [] none with
  | panic => rw [hp] at h; cases h
  | diverge => rw [hp] at h; cases h
  | ok q =>
    obtain ⟨o, l1⟩ := q
    rw [hp] at h
    simp only [Outcome.bind] at h
    cases o with
    | done => cases h
    | fatal es =>
      cases h
      rcases hx with hx | ⟨_, hx⟩ <;> cases hx
    | token ld t errors =>
      dsimp only at h
      cases hq : collectTrailing c (l1.src.rest.length + 1) l1 with
      | panic => rw [hq] at h; cases h
      | diverge => rw [hq] at h; cases h
      | ok q =>
        obtain ⟨ts, l2⟩ := q
        rw [hq] at h
        cases errors with
        | some es =>
          cases h
          rcases hx with hx | ⟨_, hx⟩ <;> cases hx
          exact collectTrailing_rest hc hq hm
        | none =>
          cases h
          rcases hx with hx | ⟨_, hx⟩ <;> cases hx
          exact collectTrailing_rest hc hq hm

/-- A reference and the one that follows it divide the trivia between them at the end of the line. -/
def Divided (x y : LexRes TokRef) : Prop :=
  ∀ t u, (x = .ok t ∨ ∃ es, x = .recovered t es) → y = .ok u → restOfLine (t.trailing ++ u.flat) = (t.trailing, u.flat)

theorem lexRest_head {fuel : Nat} {l : Lx} {y : LexRes TokRef} {rs : List (LexRes TokRef)} (h : lexRest c fuel l = .ok (y :: rs)) :
    ∃ l', processNextWithTrivia c l = .ok (some y, l') ∧ ∃ n, lexRest c n l' = .ok rs := by
  cases fuel with
  | zero => cases h
  | succ fuel =>
    unfold lexRest at h
    cases hp : processNextWithTrivia c l with
    | panic => rw [hp] at h; cases h
    | diverge => rw [hp] at h; cases h
    | ok q =>
      obtain ⟨o, l'⟩ := q
      rw [hp] at h
      cases o with
      | none => cases h
      | some t =>
        simp only [Outcome.bind] at h
        cases hr : lexRest c fuel l' with
        | panic => rw [hr] at h; cases h
        | diverge => rw [hr] at h; cases h
        | ok ts =>
          rw [hr] at h
          cases h
          exact ⟨l', rfl, fuel, hr⟩

theorem divided_next (hc : c.Good) {l l1 : Lx} {n : Nat} {x y : LexRes TokRef} {rs : List (LexRes TokRef)}
    (h : processNextWithTrivia c l = .ok (some x, l1)) (hr : lexRest c n l1 = .ok (y :: rs)) : Divided x y := by
  obtain ⟨l2, h2, -⟩ := lexRest_head hr
  intro t u hx hy
  subst hy
  exact withTrivia_rest hc h hx (processNextWithTrivia_steps h2)

theorem lexRest_divided (hc : c.Good) {a : List (LexRes TokRef)} : ∀ {n : Nat} {l : Lx} {x y : LexRes TokRef} {b : List (LexRes TokRef)},
    lexRest c n l = .ok (a ++ x :: y :: b) → Divided x y := by
  induction a with
  | nil =>
    intro n l x y b h
    obtain ⟨l1, h1, m, h2⟩ := lexRest_head h
    exact divided_next hc h1 h2
  | cons z a ih =>
    intro n l x y b h
    obtain ⟨l1, h1, m, h2⟩ := lexRest_head h
    exact ih h2

/-- The first result, and where it came from. -/
theorem lexAll_head {source : Text} {rs : List (LexRes TokRef)} (h : lexAll c source = .ok rs) :
    (∃ n l, lexRest c n l = .ok rs) ∨ ∃ y rs' n l l', rs = y :: rs' ∧ lexRest c n l' = .ok rs' ∧
      (processNextWithTrivia c l = .ok (some y, l') ∨
        ∃ t x s, x.type = .shebang s ∧ processNextWithTrivia c l = .ok (some (.ok t), l') ∧ y = .ok { t with leading := x :: t.leading }) := by
  unfold lexAll at h
  cases hp : processFirstWithTrivia c (Lx.new source) with
  | panic => rw [hp] at h; cases h
  | diverge => rw [hp] at h; cases h
  | ok q =>
    obtain ⟨o, l⟩ := q
    rw [hp] at h
    simp only [Outcome.bind] at h
    cases hr : lexRest c (source.length + 2) l with
    | panic => cases o <;> (dsimp only at h; rw [hr] at h; cases h)
    | diverge => cases o <;> (dsimp only at h; rw [hr] at h; cases h)
    | ok ts =>
      cases o with
      | none => dsimp only at h; rw [hr] at h; cases h; exact .inl ⟨_, _, hr⟩
      | some y =>
        dsimp only at h
        rw [hr] at h
        cases h
        unfold processFirstWithTrivia at hp
        split at hp
        · rename_i r hrest
          dsimp only at hp
          cases hq : processNextWithTrivia c { Lx.new source with
              src := (lineLoop r (((Lx.new source).src.pos.advance '#').advance '!') ['#', '!']).2 } with
          | panic => rw [hq] at hp; cases hp
          | diverge => rw [hq] at hp; cases hp
          | ok q =>
            obtain ⟨o, l1⟩ := q
            rw [hq] at hp
            simp only [Outcome.bind] at hp
            split at hp
            · rename_i heq
              cases heq
              cases hp
              exact .inr ⟨_, _, _, _, _, rfl, hr, .inr ⟨_, _, _, rfl, hq, rfl⟩⟩
            · rename_i heq
              cases heq
              exact .inr ⟨_, _, _, _, _, rfl, hr, .inl hp⟩
        · exact .inr ⟨_, _, _, _, _, rfl, hr, .inl hp⟩

theorem lexAll_divided (hc : c.Good) {source : Text} {a b : List (LexRes TokRef)} {x y : LexRes TokRef}
    (h : lexAll c source = .ok (a ++ x :: y :: b)) : Divided x y := by
  rcases lexAll_head h with ⟨n, l, h⟩ | ⟨z, rs', n, l, l', hrs, hr, hz⟩
  · exact lexRest_divided hc h
  · cases a with
    | cons z' a =>
      cases hrs
      exact lexRest_divided hc hr
    | nil =>
      cases hrs
      rcases hz with hz | ⟨t, k, s, -, hz, rfl⟩
      · exact divided_next hc hz hr
      · intro t' u hx hy
        rcases hx with hx | ⟨_, hx⟩ <;> cases hx
        exact divided_next hc hz hr t u (.inl rfl) hy

/-- A list without errors whose neighbours divide their trivia. -/
theorem attaches_of : ∀ (us : List TokRef), (∀ a x y b, us = a ++ x :: y :: b → restOfLine (x.trailing ++ y.flat) = (x.trailing, y.flat)) →
    (∀ u ∈ us, u.token.type.isTrivia = false ∧ ∀ x ∈ u.leading ++ u.trailing, x.type.isTrivia = true) →
    (∀ u, us.getLast? = some u → u.trailing = []) → Attaches (us.flatMap TokRef.flat) us
  | [], _, _, _ => .nil
  | [u], _, h2, h3 => by
    have h4 := h3 u rfl
    have h5 := h2 u (by simp)
    obtain ⟨ld, t, tr⟩ := u
    cases h4
    have := Attaches.cons (leading := ld) (token := t) (rest := []) (refs := []) (fun x hx => h5.2 x (by simp [hx])) h5.1 .nil
    simpa [TokRef.flat, restOfLine] using this
  | u :: v :: us, h1, h2, h3 => by
    have h5 := h2 u (by simp)
    have ih := attaches_of (v :: us) (fun a x y b e => h1 (u :: a) x y b (by rw [e]; rfl)) (fun w hw => h2 w (by simp [hw]))
      (fun w hw => h3 w (by rw [List.getLast?_cons_cons]; exact hw))
    have h6 := h1 [] u v us rfl
    obtain ⟨ld, t, tr⟩ := u
    have key : ∀ (tr more rest : List Token), more ≠ [] → restOfLine (tr ++ more) = (tr, more) → restOfLine (tr ++ (more ++ rest)) = (tr, more ++ rest) := by
      intro tr
      induction tr with
      | nil =>
        intro more rest hne h
        cases more with
        | nil => exact absurd rfl hne
        | cons m more =>
          simp only [List.nil_append, restOfLine] at h
          split at h
          · split at h
            · cases h
            · cases h
          · rename_i hh
            simp [restOfLine, hh]
      | cons x tr ih =>
        intro more rest hne h
        simp only [List.cons_append, restOfLine] at h ⊢
        split at h
        · rename_i hh
          rw [if_pos hh]
          split at h
          · rename_i hh'
            rw [if_pos hh']
            cases tr with
            | nil => rfl
            | cons y tr => simp at h
          · rename_i hh'
            rw [if_neg hh']
            have h' : restOfLine (tr ++ more) = (tr, more) := by
              have h1 := congrArg Prod.fst h
              have h2 := congrArg Prod.snd h
              simp only [List.cons.injEq, true_and] at h1 h2
              exact Prod.ext h1 h2
            rw [ih more rest hne h']
        · cases h
    have h7 := key tr v.flat (us.flatMap TokRef.flat) (by simp [TokRef.flat]) h6
    have h8 : (TokRef.flat ⟨ld, t, tr⟩ ++ (v :: us).flatMap TokRef.flat) = ld ++ t :: (tr ++ (v.flat ++ us.flatMap TokRef.flat)) := by
      simp [TokRef.flat]
    rw [List.flatMap_cons, h8]
    have := Attaches.cons (leading := ld) (token := t) (rest := tr ++ (v.flat ++ us.flatMap TokRef.flat)) (refs := v :: us)
      (fun x hx => h5.2 x (by simp [hx])) h5.1 (by rw [h7]; simpa using ih)
    rw [h7] at this
    exact this

/-- At most one list of references is made of some tokens. -/
theorem attaches_unique {ts : List Token} {us : List TokRef} (h : Attaches ts us) : ∀ {us' : List TokRef}, Attaches ts us' → us' = us := by
  induction h with
  | nil =>
    intro us' h'
    generalize hts : ([] : List Token) = ts at h'
    cases h' with
    | nil => rfl
    | cons _ _ _ => simp at hts
  | @cons ld t rest refs h1 h2 _ ih =>
    intro us' h'
    generalize hts : ld ++ t :: rest = ts at h'
    cases h' with
    | nil => simp at hts
    | @cons ld' t' rest' refs' h1' h2' h3' =>
      have : ld = ld' ∧ t = t' ∧ rest = rest' := by
        clear ih h3'
        induction ld generalizing ld' with
        | nil =>
          cases ld' with
          | nil => simpa using hts
          | cons x ld' =>
            cases hts
            rw [h1' t (by simp)] at h2
            cases h2
        | cons x ld ih =>
          cases ld' with
          | nil =>
            cases hts
            rw [h1 t' (by simp)] at h2'
            cases h2'
          | cons x' ld' =>
            simp only [List.cons_append, List.cons.injEq] at hts
            obtain ⟨e1, e2, e3⟩ := ih (fun y hy => h1 y (by simp [hy])) (fun y hy => h1' y (by simp [hy])) hts.2
            exact ⟨by rw [hts.1, e1], e2, e3⟩
      obtain ⟨rfl, rfl, rfl⟩ := this
      rw [ih h3']

/-- Placed tokens are where `place` puts tokens of their types. -/
theorem placed_place {before after : Text} {ts : List Token} (h : Placed c before ts after) : place before (ts.map Token.type) = ts := by
  induction ts generalizing before with
  | nil => rfl
  | cons t ts ih =>
    obtain ⟨h1, h2, -, h3⟩ := h
    rw [List.map_cons, place]
    show _ :: place (before ++ t.display) _ = _
    rw [ih h3]
    rw [show t.type.display = t.display from rfl, ← h1, ← h2]

end FM
