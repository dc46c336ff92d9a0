import Verif.Proofs.Nesting

/-! Helper lemmas: the tokens of a source and the brace stack. -/

namespace FM
open Spec

variable {c : Cfg}

theorem leadingLoop_braces (hc : c.Good) (hlu : c.luau = true) (fuel : Nat) {l l' : Lx} {lead : List Token} {errs : Option (List TokErr)} {nt : NonTrivial}
    (h : leadingLoop c fuel l lead errs = .ok (nt, l')) :
    match nt with
    | .token _ t _ => l'.braces = push l.braces t.type ∧ Can l.braces t.type
    | _ => l'.braces = l.braces := by
  induction fuel generalizing l lead errs with
  | zero => cases h
  | succ fuel ih =>
    unfold leadingLoop at h
    cases e : processNext c l with
    | panic => rw [e] at h; cases h
    | diverge => rw [e] at h; cases h
    | ok r =>
      obtain ⟨o, l1⟩ := r
      rw [e] at h
      have hb := processNext_braces hc hlu e
      simp only [Outcome.bind] at h
      split at h
      · rename_i heq; cases heq; cases h; exact hb
      · rename_i heq
        cases heq
        have hb : l1.braces = push l.braces _ ∧ Can l.braces _ := hb
        split at h
        · rename_i ht
          rw [push_neutral (neutral_trivia ht)] at hb
          have := ih h
          rw [hb.1] at this
          cases nt <;> exact this
        · cases h; exact hb
      · rename_i heq; cases heq; cases h; exact hb
      · rename_i heq
        cases heq
        have hb : l1.braces = push l.braces _ ∧ Can l.braces _ := hb
        split at h
        · rename_i ht
          rw [push_neutral (neutral_trivia ht)] at hb
          have := ih h
          rw [hb.1] at this
          cases nt <;> exact this
        · cases h; exact hb

theorem processNext_trailing {l l' : Lx} {o : Option (LexRes Token)} (hh : headIs startsTrailing l.src.rest = true) (h : processNext c l = .ok (o, l')) :
    l'.braces = l.braces := by
  obtain ⟨⟨rest, p⟩, b, bs⟩ := l
  cases rest with
  | nil => cases hh
  | cons ch r =>
    have hne : ∀ k, startsTrailing k = false → ch ≠ k := by
      rintro k hk rfl
      rw [headIs, hk] at hh
      cases hh
    rw [processNext_plain (by rintro (h | h | h) <;> exact hne _ rfl h) (hne _ rfl) (hne _ rfl)] at h
    cases h
    rfl

theorem collectTrailing_braces (fuel : Nat) {l l' : Lx} {ts : List Token} (h : collectTrailing c fuel l = .ok (ts, l')) : l'.braces = l.braces := by
  induction fuel generalizing l ts with
  | zero => cases h
  | succ fuel ih =>
    unfold collectTrailing at h
    split at h
    · rename_i hh
      cases e : processNext c l with
      | panic => rw [e] at h; cases h
      | diverge => rw [e] at h; cases h
      | ok r =>
        obtain ⟨o, l1⟩ := r
        rw [e] at h
        have hb := processNext_trailing hh e
        simp only [Outcome.bind] at h
        split at h
        · rename_i heq
          cases heq
          split at h
          · split at h
            · cases h; exact hb
            · cases e2 : collectTrailing c fuel l1 with
              | panic => rw [e2] at h; cases h
              | diverge => rw [e2] at h; cases h
              | ok r =>
                obtain ⟨ts', l2⟩ := r
                rw [e2] at h
                cases h
                rw [ih e2, hb]
          · cases h; exact hb
        · rename_i heq
          cases heq
          cases h; exact hb
    · cases h; rfl

theorem processNextWithTrivia_braces (hc : c.Good) (hlu : c.luau = true) {l l' : Lx} {o : Option (LexRes TokRef)} (h : processNextWithTrivia c l = .ok (o, l')) :
    match o.bind tokenOf? with
    | some t => l'.braces = push l.braces t.token.type ∧ Can l.braces t.token.type
    | none => l'.braces = l.braces := by
  unfold processNextWithTrivia at h
  cases e : leadingLoop c (l.src.rest.length + 1) l [] none with
  | panic => rw [e] at h; cases h
  | diverge => rw [e] at h; cases h
  | ok r =>
    obtain ⟨nt, l1⟩ := r
    rw [e] at h
    have hb := leadingLoop_braces hc hlu _ e
    simp only [Outcome.bind] at h
    split at h
    · rename_i heq; cases heq; cases h; exact hb
    · rename_i heq; cases heq; cases h; exact hb
    · rename_i lead t errs l2 heq
      cases heq
      cases e2 : collectTrailing c (l1.src.rest.length + 1) l1 with
      | panic => rw [e2] at h; cases h
      | diverge => rw [e2] at h; cases h
      | ok r =>
        obtain ⟨ts, l2⟩ := r
        rw [e2] at h
        simp only at h
        have := collectTrailing_braces _ e2
        cases errs with
        | some es =>
          cases h
          exact ⟨this.trans hb.1, hb.2⟩
        | none =>
          cases h
          exact ⟨this.trans hb.1, hb.2⟩

theorem _root_.FM.Spec.Balanced.append {a b : List TokenType} (ha : Balanced a) (hb : Balanced b) : Balanced (a ++ b) := by
  refine Balanced.rec (motive_1 := fun b _ => Balanced (a ++ b)) (motive_2 := fun _ _ => True) ?_ ?_ ?_ ?_ (fun _ _ => trivial) (fun _ _ _ _ => trivial) hb
  · simpa using ha
  · intro pre ty _ hn h
    rw [← List.append_assoc]
    exact .neutral h hn
  · intro pre body _ hb h _
    have := Balanced.braces h hb
    simpa using this
  · intro pre parts x y _ hp h _
    have := Balanced.string (x := x) (y := y) h hp
    simpa using this

theorem _root_.FM.Spec.Parts.append {ps b : List TokenType} (hp : Parts ps) (hb : Balanced b) : Parts (ps ++ b) := by
  cases hp with
  | one h => exact .one (h.append hb)
  | @more _ x _ h h' =>
    have := Parts.more (x := x) h (h'.append hb)
    simpa using this

mutual
theorem foldl_balanced : ∀ {b : List TokenType}, Balanced b → ∀ bs, b.foldl push bs = bs
  | _, .nil, _ => rfl
  | _, .neutral h hn, bs => by
    rw [List.foldl_append, foldl_balanced h]
    exact push_neutral hn
  | _, .braces h h', bs => by
    simp only [List.foldl_append, List.foldl_cons, List.foldl_nil, foldl_balanced h, foldl_balanced h', push, List.tail_cons]
  | _, .string h h', bs => by
    simp only [List.foldl_append, List.foldl_cons, List.foldl_nil, foldl_balanced h, push, foldl_parts h', List.tail_cons]
theorem foldl_parts : ∀ {ps : List TokenType}, Parts ps → ∀ bs, ps.foldl push bs = bs
  | _, .one h, bs => foldl_balanced h bs
  | _, .more h h', bs => by
    simp only [List.foldl_append, List.foldl_cons, foldl_parts h, push, foldl_balanced h']
end

/-- What is open after the tokens `pre`. -/
inductive Open : List TokenType → List BraceType → Prop where
  | empty {pre} : Open pre []
  | brace {pre bs body} : Open pre bs → Balanced body → Open (pre ++ .symbol .leftBrace :: body) (.normal :: bs)
  | string {pre bs x parts} : Open pre bs → Parts parts → Open (pre ++ .interpolated x .begin :: parts) (.interpolatedString :: bs)

theorem Open.append {pre b : List TokenType} {bs : List BraceType} (h : Open pre bs) (hb : Balanced b) : Open (pre ++ b) bs := by
  cases h with
  | empty => exact .empty
  | brace h h' =>
    have := Open.brace h (h'.append hb)
    simpa using this
  | @string _ _ x _ h h' =>
    have := Open.string (x := x) h (h'.append hb)
    simpa using this

theorem Open.push {pre : List TokenType} {bs : List BraceType} (h : Open pre bs) {ty : TokenType} (hc : Can bs ty) : Open (pre ++ [ty]) (FM.push bs ty) := by
  have neutral : Neutral ty → Open (pre ++ [ty]) (FM.push bs ty) := by
    intro hn
    rw [push_neutral hn]
    exact h.append (.neutral .nil hn)
  cases ty with
  | symbol y =>
    by_cases h1 : y = .leftBrace
    · subst h1
      exact .brace h .nil
    · by_cases h2 : y = .rightBrace
      · subst h2
        have hne := hc.2 rfl
        cases h with
        | empty => exact .empty
        | @brace pre bs body h h' =>
          have := h.append (.braces .nil h')
          simpa [FM.push] using this
        | string h h' => exact absurd rfl hne
      · exact neutral ⟨h1, h2⟩
  | interpolated x k =>
    cases k with
    | begin => exact .string h (.one .nil)
    | simple => exact neutral rfl
    | middle =>
      have he := hc.1 _ _ rfl (.inl rfl)
      cases h with
      | empty => cases he
      | brace h h' => cases he
      | @string _ _ z _ h h' =>
        have := Open.string (x := z) h (.more (x := x) h' .nil)
        simpa [FM.push] using this
    | end_ =>
      have he := hc.1 _ _ rfl (.inr rfl)
      cases h with
      | empty => cases he
      | brace h h' => cases he
      | @string _ _ z _ h h' =>
        have := h.append (.string (x := z) (y := x) .nil h')
        simpa [FM.push] using this
  | _ => exact neutral trivial

theorem inString_head {pre : List TokenType} (h : InString pre) (bs : List BraceType) : (pre.foldl push bs).head? = some .interpolatedString := by
  obtain ⟨pre', x, parts, rfl, hp⟩ := h
  simp only [List.foldl_append, List.foldl_cons, push, foldl_parts hp, List.head?_cons]

theorem Open.inString {pre : List TokenType} {bs : List BraceType} (h : Open pre bs) (hb : bs.head? = some .interpolatedString) : InString pre := by
  cases h with
  | empty => cases hb
  | brace h h' => cases hb
  | string h h' => exact ⟨_, _, _, rfl, h'⟩

theorem tokensOf_cons (r : LexRes TokRef) (rs : List (LexRes TokRef)) : tokensOf (r :: rs) = (tokenOf? r).toList ++ tokensOf rs := by
  cases r <;> rfl

theorem lexRest_nests (hc : c.Good) (hlu : c.luau = true) (fuel : Nat) {l : Lx} {rs : List (LexRes TokRef)} (h : lexRest c fuel l = .ok rs)
    {pre : List TokenType} (hp : pre.foldl push [] = l.braces) (ho : Open pre l.braces) {a b : List TokenType} {ty : TokenType}
    (he : (tokensOf rs).map (·.token.type) = a ++ ty :: b) :
    (∀ x k, ty = .interpolated x k → k = .middle ∨ k = .end_ → InString (pre ++ a)) ∧ (ty = .symbol .rightBrace → ¬ InString (pre ++ a)) := by
  induction fuel generalizing l rs pre a with
  | zero => cases h
  | succ fuel ih =>
    unfold lexRest at h
    cases e : processNextWithTrivia c l with
    | panic => rw [e] at h; cases h
    | diverge => rw [e] at h; cases h
    | ok r =>
      obtain ⟨o, l1⟩ := r
      rw [e] at h
      have hb := processNextWithTrivia_braces hc hlu e
      cases o with
      | none =>
        simp only [Outcome.bind, Outcome.ok.injEq] at h
        subst h
        simp [tokensOf] at he
      | some r =>
        simp only [Outcome.bind] at h
        cases e2 : lexRest c fuel l1 with
        | panic => rw [e2] at h; cases h
        | diverge => rw [e2] at h; cases h
        | ok rs' =>
          rw [e2] at h
          simp only [Outcome.ok.injEq] at h
          subst h
          simp only [Option.bind] at hb
          rw [tokensOf_cons] at he
          cases ht : tokenOf? r with
          | none =>
            rw [ht] at hb he
            dsimp only at hb
            exact ih e2 (by rw [hp, hb]) (by rw [hb]; exact ho) (by simpa using he)
          | some t =>
            rw [ht] at hb he
            dsimp only at hb
            cases a with
            | nil =>
              simp only [Option.toList_some, List.cons_append, List.nil_append, List.map_cons, List.cons.injEq] at he
              obtain ⟨rfl, _⟩ := he
              refine ⟨fun x k e3 hk => ?_, fun e3 hin => ?_⟩
              · simp only [List.append_nil]
                exact ho.inString (hb.2.1 x k e3 hk)
              · have := inString_head hin []
                simp only [List.append_nil] at this
                rw [hp] at this
                exact hb.2.2 e3 this
            | cons x a =>
              simp only [Option.toList_some, List.cons_append, List.nil_append, List.map_cons, List.cons.injEq] at he
              obtain ⟨rfl, he⟩ := he
              have := ih e2 (pre := pre ++ [t.token.type]) (by simp [hp, hb.1]) (by rw [hb.1]; exact ho.push hb.2) he
              simpa using this

theorem leadingLoop_eof_only (fuel : Nat) {l l' : Lx} (hr : l.src.rest = []) {lead ld : List Token} {errs es : Option (List TokErr)} {t : Token}
    (h : leadingLoop c fuel l lead errs = .ok (.token ld t es, l')) : t.type = .eof := by
  cases fuel with
  | zero => cases h
  | succ fuel =>
    unfold leadingLoop at h
    rw [processNext_nil hr] at h
    split at h
    · cases h
    · cases h; rfl

theorem leadingLoop_recovered (hc : c.Good) (fuel : Nat) {l l' : Lx} {lead ld : List Token} {es : List TokErr} {t : Token}
    (h : leadingLoop c fuel l lead none = .ok (.token ld t (some es), l')) : (∀ x, t.type ≠ .interpolated x .begin) ∧ t.type ≠ .symbol .leftBrace := by
  induction fuel generalizing l lead with
  | zero => cases h
  | succ fuel ih =>
    unfold leadingLoop at h
    cases e : processNext c l with
    | panic => rw [e] at h; cases h
    | diverge => rw [e] at h; cases h
    | ok r =>
      obtain ⟨o, l1⟩ := r
      rw [e] at h
      simp only [Outcome.bind] at h
      split at h
      · cases h
      · split at h
        · exact ih h
        · cases h
      · cases h
      · rename_i heq
        cases heq
        have h1 := processNext_recovered e
        split at h
        · rename_i ht
          rw [leadingLoop_eof_only _ (h1.2 ht) h]
          exact ⟨nofun, nofun⟩
        · cases h
          refine ⟨h1.1, fun e2 => ?_⟩
          cases hr : l.src.rest with
          | nil =>
            rw [processNext_nil hr] at e
            split at e <;> cases e
          | cons ch r =>
            obtain ⟨res, hres, ⟨w, hw, hrd, hg⟩, _⟩ := processNext_cons hc hr e
            cases hres
            have := hg.2.2.1
            rw [e2] at this
            cases this

theorem processNextWithTrivia_lost (hc : c.Good) (hlu : c.luau = true) {l l' : Lx} {o : Option (LexRes TokRef)} (h : processNextWithTrivia c l = .ok (o, l'))
    (hb : l.braces = []) (hn : ∀ t, o ≠ some (.ok t)) : l'.braces = [] := by
  have h1 := processNextWithTrivia_braces hc hlu h
  cases o with
  | none => exact h1.trans hb
  | some r =>
    cases r with
    | ok t => exact absurd rfl (hn t)
    | fatal es => exact h1.trans hb
    | recovered t es =>
      have h1 : l'.braces = push l.braces t.token.type ∧ Can l.braces t.token.type := h1
      rw [h1.1, hb]
      have h2 : (∀ x, t.token.type ≠ .interpolated x .begin) ∧ t.token.type ≠ .symbol .leftBrace := by
        unfold processNextWithTrivia at h
        cases e : leadingLoop c (l.src.rest.length + 1) l [] none with
        | panic => rw [e] at h; cases h
        | diverge => rw [e] at h; cases h
        | ok r =>
          obtain ⟨nt, l1⟩ := r
          rw [e] at h
          simp only [Outcome.bind] at h
          split at h
          · cases h
          · cases h
          · rename_i lead t errs l2 heq
            cases heq
            cases e2 : collectTrailing c (l1.src.rest.length + 1) l1 with
            | panic => rw [e2] at h; cases h
            | diverge => rw [e2] at h; cases h
            | ok r =>
              rw [e2] at h
              simp only at h
              cases errs with
              | some es =>
                cases h
                exact leadingLoop_recovered hc _ e
              | none => cases h
      unfold push
      split
      · rename_i e; exact absurd e h2.2
      · rfl
      · rename_i e; exact absurd e (h2.1 _)
      · rfl
      · rfl

theorem processFirst_braces (hc : c.Good) (hlu : c.luau = true) {l l' : Lx} {o : Option (LexRes TokRef)} (h : processFirstWithTrivia c l = .ok (o, l'))
    (hb : l.braces = []) :
    match o.bind tokenOf? with
    | some t => l'.braces = push [] t.token.type ∧ Can [] t.token.type
    | none => l'.braces = [] := by
  unfold processFirstWithTrivia at h
  split at h
  · dsimp only at h
    rename_i r _
    generalize (lineLoop r ((l.src.pos.advance '#').advance '!') ['#', '!']) = ls at h
    obtain ⟨line, s⟩ := ls
    dsimp only at h
    cases e : processNextWithTrivia c { l with src := s } with
    | panic => rw [e] at h; cases h
    | diverge => rw [e] at h; cases h
    | ok r =>
      obtain ⟨o1, l1⟩ := r
      rw [e] at h
      simp only [Outcome.bind] at h
      split at h
      · rename_i heq
        cases heq
        cases h
        have := processNextWithTrivia_braces hc hlu e
        rw [hb] at this
        exact this
      · rename_i hne heq
        cases heq
        have h1 := processNextWithTrivia_lost hc hlu e hb (fun t e3 => by subst e3; exact hne _ rfl)
        have := processNextWithTrivia_braces hc hlu h
        rw [h1] at this
        exact this
  · have := processNextWithTrivia_braces hc hlu h
    rw [hb] at this
    exact this

theorem lexAll_nests (hc : c.Good) (hlu : c.luau = true) {src : Text} {rs : List (LexRes TokRef)} (h : lexAll c src = .ok rs)
    {a b : List TokenType} {ty : TokenType} (he : (tokensOf rs).map (·.token.type) = a ++ ty :: b) :
    (∀ x k, ty = .interpolated x k → k = .middle ∨ k = .end_ → InString a) ∧ (ty = .symbol .rightBrace → ¬ InString a) := by
  unfold lexAll at h
  cases e : processFirstWithTrivia c (Lx.new src) with
  | panic => rw [e] at h; cases h
  | diverge => rw [e] at h; cases h
  | ok r =>
    obtain ⟨o, l⟩ := r
    rw [e] at h
    have hb := processFirst_braces hc hlu e rfl
    simp only [Outcome.bind] at h
    have rest : ∀ {rs'}, lexRest c (src.length + 2) l = .ok rs' → ∀ {pre a}, pre.foldl push [] = l.braces → Open pre l.braces →
        (tokensOf rs').map (·.token.type) = a ++ ty :: b →
        (∀ x k, ty = .interpolated x k → k = .middle ∨ k = .end_ → InString (pre ++ a)) ∧ (ty = .symbol .rightBrace → ¬ InString (pre ++ a)) :=
      fun e2 => fun h1 h2 h3 => lexRest_nests hc hlu _ e2 h1 h2 h3
    cases o with
    | none =>
      dsimp only at h
      cases e2 : lexRest c (src.length + 2) l with
      | panic => rw [e2] at h; cases h
      | diverge => rw [e2] at h; cases h
      | ok rs' =>
        rw [e2] at h
        cases h
        exact rest e2 (pre := []) hb.symm (by rw [show l.braces = [] from hb]; exact .empty) he
    | some r =>
      dsimp only at h
      cases e2 : lexRest c (src.length + 2) l with
      | panic => rw [e2] at h; cases h
      | diverge => rw [e2] at h; cases h
      | ok rs' =>
        rw [e2] at h
        cases h
        rw [tokensOf_cons] at he
        simp only [Option.bind] at hb
        cases ht : tokenOf? r with
        | none =>
          rw [ht] at hb he
          dsimp only at hb
          exact rest e2 (pre := []) hb.symm (by rw [hb]; exact .empty) (by simpa using he)
        | some t =>
          rw [ht] at hb he
          dsimp only at hb
          cases a with
          | nil =>
            simp only [Option.toList_some, List.cons_append, List.nil_append, List.map_cons, List.cons.injEq] at he
            obtain ⟨rfl, _⟩ := he
            refine ⟨fun x k e3 hk => ?_, fun e3 hin => ?_⟩
            · have := hb.2.1 x k e3 hk
              cases this
            · have := inString_head hin []
              cases this
          | cons x a =>
            simp only [Option.toList_some, List.cons_append, List.nil_append, List.map_cons, List.cons.injEq] at he
            obtain ⟨rfl, he⟩ := he
            exact rest e2 (pre := [t.token.type]) (by simp [hb.1]) (by rw [hb.1]; exact Open.push (pre := []) .empty hb.2) he

end FM
