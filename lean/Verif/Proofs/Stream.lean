import Verif.Proofs.LexerStep

/-! Helper lemmas: token references and the token stream. -/

namespace FM
open Spec

/-- The source `src` has been read up to and including `pre`. -/
def At (src pre : Text) (s : Src) : Prop := src = pre ++ s.rest ∧ s.pos = position pre

theorem At.reads {src pre w : Text} {s s' : Src} (h : At src pre s) (hr : Reads s w s') :
    At src (pre ++ w) s' := by
  refine ⟨by rw [h.1, hr.1, List.append_assoc], ?_⟩
  rw [hr.2, h.2, adv_position]

theorem text_append (a b : List Token) : text (a ++ b) = text a ++ text b := by simp [text]
theorem text_cons (a : Token) (b : List Token) : text (a :: b) = a.display ++ text b := by simp [text]
@[simp] theorem text_nil : text [] = [] := rfl

theorem placed_append {c : Cfg} {before after : Text} {a b : List Token} :
    Placed c before (a ++ b) after ↔
      Placed c before a (text b ++ after) ∧ Placed c (before ++ text a) b after := by
  induction a generalizing before with
  | nil => simp [Placed]
  | cons t a ih =>
    simp only [List.cons_append, Placed, text_append, text_cons, List.append_assoc, ih]
    constructor
    · rintro ⟨h1, h2, h3, h4, h5⟩; exact ⟨⟨h1, h2, h3, h4⟩, h5⟩
    · rintro ⟨⟨h1, h2, h3, h4⟩, h5⟩; exact ⟨h1, h2, h3, h4, h5⟩

/-- No backtick that would make the tokenizer panic remains. -/
def NoPanic (c : Cfg) (l : Lx) : Prop := BackticksOk c l.src.rest

theorem NoPanic.of_suffix {c : Cfg} {s s' : Src} {w : Text} (h : BackticksOk c s.rest) (hr : Reads s w s') :
    BackticksOk c s'.rest := by
  rcases h with h | h | h
  · exact .inl h
  · exact .inr (.inl h)
  · refine .inr (.inr ?_)
    rw [hr.1] at h
    simp at h
    exact h.2

theorem NoPanic.not_of_suffix {c : Cfg} {s s' : Src} {w : Text} (hr : Reads s w s')
    (h : ¬ BackticksOk c s'.rest) : ¬ BackticksOk c s.rest := fun h' => h (NoPanic.of_suffix h' hr)

theorem processNext_total {c : Cfg} {l : Lx} : (processNext c l = .panic ∧ ¬ NoPanic c l) ∨
    ∃ o l', processNext c l = .ok (o, l') := by
  cases hp : processNext c l with
  | ok a => exact .inr ⟨a.1, a.2, rfl⟩
  | diverge => exact absurd hp processNext_not_diverge
  | panic =>
    refine .inl ⟨rfl, fun h => ?_⟩
    rw [processNext_panic] at hp
    rcases h with h | h | h
    · have := hp.2.1; simp only [Cfg.luau] at this; rw [this] at h; simp at h
    · rw [hp.2.2] at h; simp at h
    · apply h
      have := hp.1
      exact List.mem_of_head? this

/-- What one step does, in terms of the source. -/
theorem step_spec {c : Cfg} (hc : c.Good) {src pre : Text} {l l' : Lx} {o : Option (LexRes Token)}
    (hat : At src pre l.src) (h : processNext c l = .ok (o, l')) :
    (l.src.rest = [] ∧ l.sentEof = true ∧ o = none ∧ l' = l) ∨
    (l.src.rest = [] ∧ l.sentEof = false ∧ o = some (.ok ⟨position pre, position pre, .eof⟩) ∧
      l' = { l with sentEof := true }) ∨
    (∃ w, w ≠ [] ∧ Reads l.src w l'.src ∧ l'.sentEof = l.sentEof ∧
      ((∃ t, o = some (.ok t) ∧ t.display = w ∧ t.start = position pre ∧ t.stop = endPosition pre w ∧
          t.type ≠ .eof ∧ TypeWf c t.type l'.src.rest) ∨
       (∃ es, o = some (.fatal es) ∧ es ≠ [] ∧ ∀ e ∈ es, ErrorIn src e) ∨
       (∃ t es, o = some (.recovered t es) ∧ t.start = position pre ∧ canRecover t.type = true ∧
          es ≠ [] ∧ ∀ e ∈ es, ErrorIn src e))) := by
  cases h0 : l.src.rest with
  | nil =>
    rw [processNext_nil h0] at h
    split at h
    · rename_i he
      simp only [Outcome.ok.injEq, Prod.mk.injEq] at h
      exact .inl ⟨rfl, he, h.1.symm, h.2.symm⟩
    · rename_i he
      simp only [Outcome.ok.injEq, Prod.mk.injEq] at h
      exact .inr (.inl ⟨rfl, by simpa using he, by rw [← h.1, hat.2], h.2.symm⟩)
  | cons ch r =>
    refine .inr (.inr ?_)
    obtain ⟨res, rfl, ⟨w, hw, hr, hres⟩, hse⟩ := processNext_cons hc h0 h
    have hat' := hat.reads hr
    refine ⟨w, hw, hr, hse, ?_⟩
    have herr : ∀ e : TokErr, e.range = (l.src.pos, l'.src.pos) → ErrorIn src e := by
      intro e he
      exact ⟨pre, w, l'.src.rest, hat'.1, hw, by rw [he, hat.2, hat'.2]⟩
    cases res with
    | ok t =>
      simp only at hres
      obtain ⟨h1, h2, h3, h4, h5⟩ := hres
      refine .inl ⟨t, rfl, h3, by rw [h1, hat.2], ?_, h4, h5⟩
      rw [h2, hat.2, tokenEnd_position]
    | fatal es =>
      obtain ⟨e, rfl, he⟩ := hres
      exact .inr (.inl ⟨_, rfl, by simp, by simpa using herr e he⟩)
    | recovered t es =>
      obtain ⟨h1, h2, h3, e, rfl, he⟩ := hres
      exact .inr (.inr ⟨t, _, rfl, by rw [h1, hat.2], h3, by simp, by simpa using herr e he⟩)

theorem collectTrailing_spec {c : Cfg} (hc : c.Good) {src : Text} (fuel : Nat) (pre : Text) (l : Lx)
    (hat : At src pre l.src) (hf : l.src.rest.length < fuel) :
    (collectTrailing c fuel l = .panic ∧ ¬ NoPanic c l) ∨
    ∃ ts l', collectTrailing c fuel l = .ok (ts, l') ∧ Reads l.src (text ts) l'.src ∧
      Placed c pre ts l'.src.rest ∧ l'.sentEof = l.sentEof ∧ (∀ t ∈ ts, t.type.isTrivia = true) ∧
      (∀ t ∈ ts.dropLast, t.type.endsLine = false) := by
  induction fuel generalizing pre l with
  | zero => omega
  | succ fuel ih =>
    unfold collectTrailing
    split
    · rename_i hh
      rcases processNext_total (c := c) (l := l) with ⟨hp, hn⟩ | ⟨o, l1, h1⟩
      · rw [hp]; exact .inl ⟨rfl, hn⟩
      rw [h1]
      simp only [Outcome.bind]
      rcases step_spec hc hat h1 with ⟨h0, _, _, _⟩ | ⟨h0, _, _, _⟩ | ⟨w, hw, hr, hse, hres⟩
      · rw [h0] at hh; simp [headIs] at hh
      · rw [h0] at hh; simp [headIs] at hh
      · have stop : ∀ P : Prop, P ∨ ∃ ts l', (Outcome.ok (([] : List Token), { l1 with src := l.src, sentEof := l.sentEof }) :
            Outcome (List Token × Lx)) = .ok (ts, l') ∧ Reads l.src (text ts) l'.src ∧
            Placed c pre ts l'.src.rest ∧ l'.sentEof = l.sentEof ∧ (∀ t ∈ ts, t.type.isTrivia = true) ∧
            (∀ t ∈ ts.dropLast, t.type.endsLine = false) :=
          fun P => .inr ⟨[], _, rfl, .refl _, trivial, rfl, by simp, by simp⟩
        rcases hres with ⟨t, rfl, hd, hst, hsp, hne, hwf⟩ | ⟨es, rfl, _⟩ | ⟨t, es, rfl, _⟩
        · simp only
          split
          · rename_i htr
            split
            · rename_i hend
              refine .inr ⟨[t], l1, rfl, by simpa [text, hd] using hr, ?_, hse, by simpa using htr, by simp⟩
              exact ⟨hst, by rw [hd]; exact hsp, by simpa using hwf, trivial⟩
            · rename_i hend
              have hlen := hr.length
              have hwl : 0 < w.length := List.length_pos_iff.2 hw
              rcases ih (pre ++ w) l1 (hat.reads hr) (by omega) with
                ⟨hp, hn⟩ | ⟨ts, l2, h2, hr2, hp2, hse2, ht2, he2⟩
              · rw [hp]; exact .inl ⟨rfl, NoPanic.not_of_suffix hr hn⟩
              rw [h2]
              refine .inr ⟨t :: ts, l2, rfl, ?_, ?_, by rw [hse2, hse], ?_, ?_⟩
              · rw [text_cons, hd]; exact hr.trans hr2
              · refine ⟨hst, by rw [hd]; exact hsp, ?_, by rw [hd]; exact hp2⟩
                rw [← hr2.1]; exact hwf
              · simp [htr]; exact ht2
              · cases ts with
                | nil => simp
                | cons u us =>
                  intro x hx
                  rw [List.dropLast_cons_cons] at hx
                  rcases List.mem_cons.1 hx with rfl | hx
                  · simpa using hend
                  · exact he2 x hx
          · exact stop _
        · exact stop _
        · exact stop _
    · exact .inr ⟨[], l, rfl, .refl _, trivial, rfl, by simp, by simp⟩

/-- The specification of the leading loop. -/
def LeadSpec (c : Cfg) (src pre : Text) (l : Lx) (leading : List Token) (errors : Option (List TokErr))
    (nt : NonTrivial) (l' : Lx) : Prop :=
  ∃ w, Reads l.src w l'.src ∧
  match nt with
  | .done => l.sentEof = true ∧ w = [] ∧ l' = l
  | .fatal es => es ≠ [] ∧ (∀ e ∈ es, ErrorIn src e) ∧ l'.sentEof = l.sentEof ∧ w ≠ []
  | .token lead t errs =>
    t.type.isTrivia = false ∧ TokenIn c src t ∧
    (t.type = .eof → l.sentEof = false ∧ l'.sentEof = true ∧ l'.src.rest = []) ∧
    (t.type ≠ .eof → l'.sentEof = l.sentEof ∧ w ≠ []) ∧
    (∃ vs, lead = leading ++ vs ∧ (∀ t ∈ vs, t.type.isTrivia = true ∧ TokenIn c src t) ∧
      (errs = none → w = text (vs ++ [t]) ∧ Placed c pre (vs ++ [t]) l'.src.rest)) ∧
    (errs = none → errors = none) ∧
    (∀ es, errs = some es → (errors.getD [] <+: es) ∧ es ≠ [] ∧ ∀ e ∈ es, e ∈ errors.getD [] ∨ ErrorIn src e)

theorem leadingLoop_spec {c : Cfg} (hc : c.Good) {src : Text} (fuel : Nat) (pre : Text) (l : Lx)
    (leading : List Token) (errors : Option (List TokErr)) (herr : errors ≠ some [])
    (hat : At src pre l.src) (hf : l.src.rest.length < fuel)
    (hinv : l.sentEof = true → l.src.rest = []) :
    (leadingLoop c fuel l leading errors = .panic ∧ ¬ NoPanic c l) ∨
    ∃ nt l', leadingLoop c fuel l leading errors = .ok (nt, l') ∧ LeadSpec c src pre l leading errors nt l' := by
  induction fuel generalizing pre l leading errors with
  | zero => omega
  | succ fuel ih =>
    unfold leadingLoop
    rcases processNext_total (c := c) (l := l) with ⟨hp, hn⟩ | ⟨o, l1, h1⟩
    · rw [hp]; exact .inl ⟨rfl, hn⟩
    rw [h1]
    simp only [Outcome.bind]
    rcases step_spec hc hat h1 with ⟨h0, h2, rfl, rfl⟩ | ⟨h0, h2, rfl, rfl⟩ | ⟨w, hw, hr, hse, hres⟩
    · exact .inr ⟨.done, _, rfl, [], .refl _, h2, rfl, rfl⟩
    · refine .inr ⟨_, _, rfl, [], ?_, ?_⟩
      · exact .refl _
      · simp only [TokenType.isTrivia, ne_eq, not_true_eq_false, false_implies, true_and]
        refine ⟨⟨pre, [], by rw [hat.1, h0], rfl, .inr ⟨[], rfl, by simp [Token.display, TokenType.display, endPosition], rfl⟩⟩, fun _ => ⟨h2, h0⟩, ⟨[], by simp, by simp, ?_⟩, fun h => h, ?_⟩
        · intro _
          refine ⟨rfl, rfl, ?_, ?_, trivial⟩
          · simp [Token.display, TokenType.display, endPosition]
          · simpa [TypeWf] using h0
        · intro es he
          subst he
          refine ⟨List.prefix_refl _, ?_, ?_⟩
          · intro h; apply herr; rw [h]
          · intro e he; exact .inl he
    · have hlen := hr.length
      have hwl : 0 < w.length := List.length_pos_iff.2 hw
      have hsf : l.sentEof = false := by
        cases hs : l.sentEof with
        | false => rfl
        | true => have := hinv hs; rw [this] at hlen; simp at hlen; omega
      have hst0 : ∀ t : Token, t.start = position pre →
          (canRecover t.type = true ∨ t.display = w ∧ t.stop = endPosition pre w ∧ TypeWf c t.type l1.src.rest) →
          TokenIn c src t := by
        intro t ht h
        refine ⟨pre, l.src.rest, hat.1, ht, h.imp id fun ⟨h1, h2, h3⟩ => ⟨l1.src.rest, ?_, by rw [h1]; exact h2, h3⟩⟩
        rw [h1]; exact hr.1
      have cont : ∀ (t : Token) (errors' : Option (List TokErr)), errors' ≠ some [] →
          t.type.isTrivia = true → t.start = position pre →
          (errors' = none → errors = none ∧ t.display = w ∧ t.stop = endPosition pre w ∧
            TypeWf c t.type l1.src.rest) →
          (canRecover t.type = true ∨ t.display = w ∧ t.stop = endPosition pre w ∧ TypeWf c t.type l1.src.rest) →
          (∀ es, errors' = some es → (errors.getD [] <+: es) ∧ ∀ e ∈ es, e ∈ errors.getD [] ∨ ErrorIn src e) →
          (leadingLoop c fuel l1 (leading ++ [t]) errors' = .panic ∧ ¬ NoPanic c l) ∨
          ∃ nt l', leadingLoop c fuel l1 (leading ++ [t]) errors' = .ok (nt, l') ∧
            LeadSpec c src pre l leading errors nt l' := by
        intro t errors' hne' htr hst hnone hgood hsome
        rcases ih (pre ++ w) l1 (leading ++ [t]) errors' hne' (hat.reads hr)
          (by omega) (fun h => by rw [hse, hsf] at h; simp at h) with ⟨hp, hn⟩ | ⟨nt, l2, h2, w2, hr2, hspec⟩
        · exact .inl ⟨hp, NoPanic.not_of_suffix hr hn⟩
        refine .inr ⟨nt, l2, h2, w ++ w2, hr.trans hr2, ?_⟩
        cases nt with
        | done =>
          simp only at hspec ⊢
          rw [hse, hsf] at hspec
          simp at hspec
        | fatal es =>
          simp only at hspec ⊢
          exact ⟨hspec.1, hspec.2.1, by rw [hspec.2.2.1, hse], by simp [hw]⟩
        | token lead x errs =>
          simp only at hspec ⊢
          obtain ⟨g1, g2, g3, g4, ⟨vs, g5, g6, g7⟩, g8, g9⟩ := hspec
          refine ⟨g1, g2, ?_, ?_, ⟨t :: vs, by simp [g5], ?_, ?_⟩, ?_, ?_⟩
          · intro hx; exact ⟨hsf, (g3 hx).2⟩
          · intro hx; exact ⟨by rw [(g4 hx).1, hse], by simp [hw]⟩
          · intro y hy
            rcases List.mem_cons.1 hy with rfl | hy
            · exact ⟨htr, hst0 _ hst hgood⟩
            · exact g6 y hy
          · intro hx
            obtain ⟨q1, q2⟩ := g7 hx
            obtain ⟨q3, q4, q5, q6⟩ := hnone (g8 hx)
            refine ⟨by rw [List.cons_append, text_cons, q4, q1], hst, by rw [q4]; exact q5, ?_, by rw [q4]; exact q2⟩
            show TypeWf c t.type (text (vs ++ [x]) ++ l2.src.rest)
            rw [← q1, ← hr2.1]; exact q6
          · intro hx; exact (hnone (g8 hx)).1
          · intro es hx
            obtain ⟨q1, q2, q3⟩ := g9 es hx
            cases he : errors' with
            | none =>
              obtain ⟨q4, _⟩ := hnone he
              rw [he] at q3
              refine ⟨by rw [q4]; exact List.nil_prefix, q2, fun e he => ?_⟩
              rcases q3 e he with h | h
              · simp at h
              · exact .inr h
            | some es' =>
              obtain ⟨q4, q5⟩ := hsome es' he
              rw [he] at q1 q3
              simp only [Option.getD_some] at q1 q3
              refine ⟨q4.trans q1, q2, fun e he => ?_⟩
              rcases q3 e he with h | h
              · exact q5 e h
              · exact .inr h
      have stop : ∀ (t : Token) (errors' : Option (List TokErr)), errors' ≠ some [] → t.type ≠ .eof →
          t.type.isTrivia = false → t.start = position pre →
          (errors' = none → errors = none ∧ t.display = w ∧ t.stop = endPosition pre w ∧
            TypeWf c t.type l1.src.rest) →
          (canRecover t.type = true ∨ t.display = w ∧ t.stop = endPosition pre w ∧ TypeWf c t.type l1.src.rest) →
          (∀ es, errors' = some es → (errors.getD [] <+: es) ∧ ∀ e ∈ es, e ∈ errors.getD [] ∨ ErrorIn src e) →
          LeadSpec c src pre l leading errors (.token leading t errors') l1 := by
        intro t errors' hne' hte htr hst hnone hgood hsome
        refine ⟨w, hr, htr, hst0 t hst hgood, fun h => absurd h hte, fun _ => ⟨hse, hw⟩,
          ⟨[], by simp, by simp, ?_⟩, ?_, ?_⟩
        · intro hx
          obtain ⟨q3, q4, q5, q6⟩ := hnone hx
          exact ⟨by simp [text, q4], hst, by rw [q4]; exact q5, by simpa using q6, trivial⟩
        · intro hx; exact (hnone hx).1
        · intro es hx
          obtain ⟨q1, q2⟩ := hsome es hx
          exact ⟨q1, fun h => hne' (by rw [hx, h]), q2⟩
      rcases hres with ⟨t, rfl, hd, hst, hsp, hne, hwf⟩ | ⟨es, rfl, hes1, hes2⟩ | ⟨t, es, rfl, hst, hne, hes1, hes2⟩
      · have hN : errors = none → errors = none ∧ t.display = w ∧ t.stop = endPosition pre w ∧
            TypeWf c t.type l1.src.rest := fun h => ⟨h, hd, hsp, hwf⟩
        have hS : ∀ es, errors = some es → (errors.getD [] <+: es) ∧
            ∀ e ∈ es, e ∈ errors.getD [] ∨ ErrorIn src e := by
          intro es he
          subst he
          exact ⟨List.prefix_refl _, fun e he => .inl he⟩
        simp only
        split
        · rename_i htr
          exact cont t errors herr htr hst hN (.inr ⟨hd, hsp, hwf⟩) hS
        · rename_i htr
          exact .inr ⟨_, _, rfl, stop t errors herr hne (by simpa using htr) hst hN (.inr ⟨hd, hsp, hwf⟩) hS⟩
      · exact .inr ⟨_, _, rfl, w, hr, hes1, hes2, hse, hw⟩
      · have hN : some (errors.getD [] ++ es) = none → errors = none ∧ t.display = w ∧
            t.stop = endPosition pre w ∧ TypeWf c t.type l1.src.rest := by simp
        have hS : ∀ es', some (errors.getD [] ++ es) = some es' → (errors.getD [] <+: es') ∧
            ∀ e ∈ es', e ∈ errors.getD [] ∨ ErrorIn src e := by
          intro es' he
          simp only [Option.some.injEq] at he
          subst he
          refine ⟨List.prefix_append _ _, fun e he => ?_⟩
          rcases List.mem_append.1 he with h | h
          · exact .inl h
          · exact .inr (hes2 e h)
        have hne' : some (errors.getD [] ++ es) ≠ some [] := by
          simp [hes1]
        simp only
        split
        · rename_i htr
          exact cont t _ hne' htr hst hN (.inl hne) hS
        · rename_i htr
          exact .inr ⟨_, _, rfl, stop t _ hne' (by rintro he; rw [he] at hne; simp [canRecover] at hne) (by simpa using htr) hst hN (.inl hne) hS⟩

/-- The specification of one token reference result. -/
def RefSpec (c : Cfg) (src pre w : Text) (l : Lx) (o : Option (LexRes TokRef)) (l' : Lx) : Prop :=
  Reads l.src w l'.src ∧ (l'.sentEof = true → l'.src.rest = []) ∧
  match o with
  | none => l.sentEof = true ∧ l' = l
  | some (.fatal es) => es ≠ [] ∧ (∀ e ∈ es, ErrorIn src e) ∧ l'.sentEof = l.sentEof ∧ w ≠ []
  | some (.ok t) =>
    l.sentEof = false ∧ w = t.display ∧ Placed c pre t.flat l'.src.rest ∧
    t.token.type.isTrivia = false ∧ (∀ x ∈ t.leading ++ t.trailing, x.type.isTrivia = true) ∧
    (∀ x ∈ t.trailing.dropLast, x.type.endsLine = false) ∧
    (t.token.type = .eof → l'.sentEof = true ∧ t.trailing = []) ∧
    (t.token.type ≠ .eof → l'.sentEof = false ∧ w ≠ [])
  | some (.recovered t es) =>
    l.sentEof = false ∧ es ≠ [] ∧ (∀ e ∈ es, ErrorIn src e) ∧
    t.token.type.isTrivia = false ∧ (∀ x ∈ t.leading ++ t.trailing, x.type.isTrivia = true) ∧
    (∀ x ∈ t.flat, TokenIn c src x) ∧
    (∀ x ∈ t.trailing.dropLast, x.type.endsLine = false) ∧
    (∃ w', w = w' ++ text t.trailing ∧ Placed c (pre ++ w') t.trailing l'.src.rest) ∧
    (t.token.type = .eof → l'.sentEof = true ∧ t.trailing = []) ∧
    (t.token.type ≠ .eof → l'.sentEof = false ∧ w ≠ [])

theorem placed_tokenIn {c : Cfg} {src : Text} {before after : Text} {ts : List Token}
    (h : Placed c before ts after) (hs : src = before ++ text ts ++ after) : ∀ t ∈ ts, TokenIn c src t := by
  induction ts generalizing before with
  | nil => simp
  | cons t ts ih =>
    obtain ⟨h1, h2, h3, h4⟩ := h
    intro x hx
    rcases List.mem_cons.1 hx with rfl | hx
    · exact ⟨before, text (x :: ts) ++ after, by rw [hs, List.append_assoc], h1,
        .inr ⟨text ts ++ after, by rw [text_cons]; simp, h2, h3⟩⟩
    · exact ih h4 (by rw [hs, text_cons]; simp) x hx

theorem processNextWithTrivia_spec {c : Cfg} (hc : c.Good) {src pre : Text} {l : Lx}
    (hat : At src pre l.src) (hinv : l.sentEof = true → l.src.rest = []) :
    (processNextWithTrivia c l = .panic ∧ ¬ NoPanic c l) ∨
    ∃ o l' w, processNextWithTrivia c l = .ok (o, l') ∧ RefSpec c src pre w l o l' := by
  unfold processNextWithTrivia
  rcases leadingLoop_spec hc (l.src.rest.length + 1) pre l [] none (by simp) hat (by omega) hinv with
    ⟨hp, hn⟩ | ⟨nt, l1, h1, w, hr, hspec⟩
  · rw [hp]; exact .inl ⟨rfl, hn⟩
  rw [h1]
  simp only [Outcome.bind]
  cases nt with
  | done =>
    obtain ⟨g1, rfl, rfl⟩ := hspec
    exact .inr ⟨none, _, [], rfl, hr, fun h => hinv h, g1, rfl⟩
  | fatal es =>
    obtain ⟨g1, g2, g3, g4⟩ := hspec
    refine .inr ⟨_, _, w, rfl, hr, ?_, g1, g2, g3, g4⟩
    intro h
    rw [g3] at h
    have := hinv h
    have hl := hr.length
    rw [this] at hl
    have : l1.src.rest.length = 0 := by simp at hl; omega
    simpa using this
  | token lead t errs =>
    obtain ⟨g1, g2, g3, g4, ⟨vs, g5, g6, g7⟩, g8, g9⟩ := hspec
    simp only [List.nil_append] at g5
    subst g5
    have hat1 := hat.reads hr
    rcases collectTrailing_spec hc (l1.src.rest.length + 1) (pre ++ w) l1 hat1 (by omega) with
      ⟨hp, hn⟩ | ⟨ts, l2, h2, hr2, hp2, hse2, ht2, he2⟩
    · simp only [hp]; exact .inl ⟨trivial, NoPanic.not_of_suffix hr hn⟩
    simp only [h2]
    have hsf : l.sentEof = false := by
      by_cases hte : t.type = .eof
      · exact (g3 hte).1
      · cases hs : l.sentEof with
        | false => rfl
        | true =>
          have := hinv hs
          have hl := hr.length
          rw [this] at hl
          have hw := (g4 hte).2
          have := List.length_pos_iff.2 hw
          simp at hl
          omega
    have heof : t.type = .eof → l2.sentEof = true ∧ ts = [] := by
      intro h
      obtain ⟨_, q2, q3⟩ := g3 h
      refine ⟨by rw [hse2, q2], ?_⟩
      have : collectTrailing c (l1.src.rest.length + 1) l1 = .ok ([], l1) := by
        unfold collectTrailing
        simp [q3, headIs]
      rw [this] at h2
      simp only [Outcome.ok.injEq, Prod.mk.injEq] at h2
      exact h2.1.symm
    have hneof : t.type ≠ .eof → l2.sentEof = false ∧ w ++ text ts ≠ [] := by
      intro h
      obtain ⟨q1, q2⟩ := g4 h
      exact ⟨by rw [hse2, q1, hsf], by simp [q2]⟩
    have hinv2 : l2.sentEof = true → l2.src.rest = [] := by
      intro h
      by_cases hte : t.type = .eof
      · have hl := hr2.length
        rw [(g3 hte).2.2] at hl
        have : l2.src.rest.length = 0 := by simp at hl; omega
        simpa using this
      · rw [(hneof hte).1] at h; simp at h
    have htriv : ∀ x ∈ lead ++ ts, x.type.isTrivia = true := by
      intro x hx
      rcases List.mem_append.1 hx with hx | hx
      · exact (g6 x hx).1
      · exact ht2 x hx
    cases errs with
    | none =>
      refine .inr ⟨_, _, w ++ text ts, rfl, hr.trans hr2, hinv2, hsf, ?_, ?_, g1, htriv, he2, heof, hneof⟩
      · rw [(g7 rfl).1]; simp [TokRef.display, text]
      · have : lead ++ t :: ts = (lead ++ [t]) ++ ts := by simp
        rw [TokRef.flat, this, placed_append]
        obtain ⟨q1, q2⟩ := g7 rfl
        refine ⟨by rw [← hr2.1]; exact q2, by rw [← q1]; exact hp2⟩
    | some es =>
      obtain ⟨q1, q2, q3⟩ := g9 es rfl
      refine .inr ⟨_, _, w ++ text ts, rfl, hr.trans hr2, hinv2, hsf, q2, ?_, g1, htriv, ?_, he2, ⟨w, rfl, hp2⟩, heof, hneof⟩
      · intro e he
        rcases q3 e he with h | h
        · simp at h
        · exact h
      · intro x hx
        simp only [TokRef.flat, List.mem_append, List.mem_cons] at hx
        rcases hx with hx | rfl | hx
        · exact (g6 x hx).2
        · exact g2
        · refine placed_tokenIn hp2 ?_ x hx
          rw [hat1.1, hr2.1]; simp

end FM
