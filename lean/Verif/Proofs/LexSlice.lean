import Verif.Proofs.Braces
import Verif.Proofs.Layout
import Verif.Proofs.Attach

/-!
# The tokens of a part of a source
-/

namespace FM
open Spec

variable {c : Cfg}

/-! ## Lexemes in front of less -/

theorem startsWith_cut {p : Char → Bool} {a b : Text} (h : startsWith p (a ++ b) = false) : startsWith p a = false := by
  cases a with
  | nil => rfl
  | cons x a => exact h

theorem head_cut {a b : Text} {ch : Char} (h : (a ++ b).head? ≠ some ch) : a.head? ≠ some ch := by
  cases a with
  | nil => simp
  | cons x a => exact h

theorem head_or {a b : Text} {ch : Char} (h : a ++ b = [] ∨ (a ++ b).head? = some ch) : a = [] ∨ a.head? = some ch := by
  cases a with
  | nil => exact .inl rfl
  | cons x a => rcases h with h | h <;> simp_all

/-- A lexeme is one if less text follows. -/
theorem lexeme_cut {bs bs' : List BraceType} {ty : TokenType} {rest more : Text} (h : Lexeme c bs ty (rest ++ more) bs') : Lexeme c bs ty rest bs' := by
  have sec : ∀ {q : Char} {e z : Bool} {body : Text}, SectionBody (q :: (rest ++ more)) e z body → SectionBody (q :: rest) e z body :=
    fun h => section_loc head_or h
  cases ty with
  | eof => exact h.elim
  | shebang _ => exact h.elim
  | identifier t => exact ⟨h.1, h.2.1, startsWith_cut h.2.2.1, h.2.2.2⟩
  | symbol y =>
    obtain ⟨h1, h2, h3, h4, h5⟩ := h
    refine ⟨h1, fun hw => startsWith_cut (h2 hw), fun hw z hz hzw hp => h3 hw z hz hzw ?_, ?_, h5⟩
    · rw [← List.append_assoc]
      exact hp.trans (List.prefix_append _ _)
    · unfold NotMore at h4 ⊢
      split at h4
      · exact head_cut h4
      · exact fun h => head_cut (h4 h)
      · exact startsWith_cut h4
      · rintro ⟨n, hn⟩
        exact h4 ⟨n, hn.trans (by rw [← List.cons_append]; exact List.prefix_append _ _)⟩
      · trivial
  | number t =>
    obtain ⟨h, hb⟩ := h
    refine ⟨?_, hb⟩
    rcases h with ⟨f, b, tl, h1, h2, h3, h4⟩ | ⟨x, b, tl, h1, h2, h3, h4⟩ | ⟨h0, x, b, tl, h1, h2, h3, h4⟩
    · refine .inl ⟨f, b, tl, h1, h2, h3, ?_⟩
      rcases h4 with ⟨h4, h5, h6⟩ | ⟨h4, h5⟩ | h4
      · exact .inl ⟨h4, startsWith_cut h5, fun e => startsWith_cut (h6 e)⟩
      · exact .inr (.inl ⟨h4, startsWith_cut h5⟩)
      · exact .inr (.inr h4)
    · refine .inr (.inl ⟨x, b, tl, h1, h2, h3, ?_⟩)
      rcases h4 with ⟨h4, h5, h6⟩ | ⟨h4, h5, h6, h7⟩ | h4
      · exact .inl ⟨h4, h5, startsWith_cut h6⟩
      · exact .inr (.inl ⟨h4, h5, h6, startsWith_cut h7⟩)
      · exact .inr (.inr h4)
    · refine .inr (.inr ⟨h0, x, b, tl, h1, h2, h3, ?_⟩)
      rcases h4 with ⟨h4, h5, h6⟩ | h4
      · exact .inl ⟨h4, h5, startsWith_cut h6⟩
      · exact .inr h4
  | whitespace t =>
    obtain ⟨h, hb⟩ := h
    refine ⟨?_, hb⟩
    rcases h with h | ⟨f, m, l, h1, h2, h3, h4⟩
    · exact .inl h
    · refine .inr ⟨f, m, l, h1, h2, h3, ?_⟩
      rcases h4 with h4 | h4 | ⟨h4, h5, h6⟩
      · exact .inl h4
      · exact .inr (.inl h4)
      · refine .inr (.inr ⟨h4, startsWith_cut h5, fun e => h6 ?_⟩)
        match rest, e with
        | a :: b :: r, e => simpa using e
        | [a], e => simp at e
        | [], e => simp at e
  | singleLineComment t => exact ⟨h.1, h.2.1, head_or h.2.2.1, h.2.2.2⟩
  | multiLineComment n b => exact h
  | cStyleComment t => exact h
  | stringLiteral body n q => cases q <;> exact h
  | interpolated x k =>
    cases k
    all_goals exact ⟨h.1, sec h.2.1, h.2.2⟩

/-! ## Other braces -/

theorem lexeme_step_braces (hl : c.has .luau = true) {bs bs' : List BraceType} {ty : TokenType} {rest : Text} (h : Lexeme c bs ty rest bs') :
    stepBraces ty bs = some bs' := by
  cases ty with
  | eof => exact h.elim
  | shebang _ => exact h.elim
  | symbol y =>
    have h := h.2.2.2.2
    unfold BracesOf at h
    split at h
    · rw [hl] at h; simp [stepBraces, h]
    · rw [hl] at h; simp at h; simp [stepBraces, h]
    · rename_i h1 h2
      subst h
      cases y <;> first | rfl | exact absurd rfl h1 | exact absurd rfl h2
  | interpolated x k =>
    obtain ⟨-, h⟩ := h
    cases k
    · simp [stepBraces, h.2]
    · simp [stepBraces, h.2]
    · simp [stepBraces, h.2]
    · simp [stepBraces, h.2]
  | identifier => rw [h.2.2.2]; rfl
  | number => rw [h.2]; rfl
  | whitespace => rw [h.2]; rfl
  | singleLineComment => rw [h.2.2.2]; rfl
  | multiLineComment => rw [h.2]; rfl
  | cStyleComment => rw [h.2.2]; rfl
  | stringLiteral body n q => cases q <;> simp [stepBraces, h.2]


/-- A lexeme is one wherever the braces allow it. -/
theorem lexeme_moved (hl : c.has .luau = true) {bs bs' base base' : List BraceType} {ty : TokenType} {rest : Text} (h : Lexeme c bs ty rest bs')
    (hb : stepBraces ty base = some base') : Lexeme c base ty rest base' := by
  cases ty with
  | eof => exact h.elim
  | shebang _ => exact h.elim
  | symbol y =>
    refine ⟨h.1, h.2.1, h.2.2.1, h.2.2.2.1, ?_⟩
    unfold BracesOf
    split
    · simp [stepBraces] at hb; simp [hl, hb]
    · simp only [stepBraces] at hb
      split at hb
      · cases hb
      · cases hb; rw [if_pos hl]; exact ⟨‹_›, rfl⟩
    · rename_i h1 h2
      have : stepBraces (.symbol y) base = some base := by
        cases y <;> first | rfl | exact absurd rfl h1 | exact absurd rfl h2
      rw [this] at hb
      cases hb; rfl
  | interpolated x k =>
    obtain ⟨-, h⟩ := h
    refine ⟨hl, ?_⟩
    cases k
    case begin => simp [stepBraces] at hb; exact ⟨h.1, hb.symm⟩
    case simple => simp [stepBraces] at hb; exact ⟨h.1, hb.symm⟩
    case middle =>
      simp only [stepBraces] at hb
      split at hb
      · cases hb; exact ⟨h.1, ‹_›, rfl⟩
      · cases hb
    case end_ =>
      simp only [stepBraces] at hb
      split at hb
      · rename_i hh
        cases hb
        refine ⟨h.1, ?_⟩
        cases base with
        | nil => cases hh
        | cons x b => cases hh; rfl
      · cases hb
  | identifier => cases hb; exact ⟨h.1, h.2.1, h.2.2.1, rfl⟩
  | number => cases hb; exact ⟨h.1, rfl⟩
  | whitespace => cases hb; exact ⟨h.1, rfl⟩
  | singleLineComment => cases hb; exact ⟨h.1, h.2.1, h.2.2.1, rfl⟩
  | multiLineComment => cases hb; exact ⟨h.1, rfl⟩
  | cStyleComment => cases hb; exact ⟨h.1, h.2.1, rfl⟩
  | stringLiteral body n q =>
    cases hb
    cases q
    · exact ⟨h.1, rfl⟩
    · exact ⟨h.1, h.2.1, rfl⟩
    · exact ⟨h.1, h.2.1, rfl⟩
    · exact ⟨h.1, h.2.1, h.2.2.1, h.2.2.2.1, rfl⟩

/-- Outside Luau no braces are kept. -/
theorem lexeme_anywhere (hl : c.has .luau = false) {bs bs' : List BraceType} {ty : TokenType} {rest : Text} (h : Lexeme c bs ty rest bs') (base : List BraceType) :
    Lexeme c base ty rest base := by
  cases ty with
  | eof => exact h.elim
  | shebang _ => exact h.elim
  | symbol y =>
    refine ⟨h.1, h.2.1, h.2.2.1, h.2.2.2.1, ?_⟩
    unfold BracesOf
    split <;> simp [hl]
  | interpolated x k => exact absurd (h.1.symm.trans hl) (by decide)
  | identifier => exact ⟨h.1, h.2.1, h.2.2.1, rfl⟩
  | number => exact ⟨h.1, rfl⟩
  | whitespace => exact ⟨h.1, rfl⟩
  | singleLineComment => exact ⟨h.1, h.2.1, h.2.2.1, rfl⟩
  | multiLineComment => exact ⟨h.1, rfl⟩
  | cStyleComment => exact ⟨h.1, h.2.1, rfl⟩
  | stringLiteral body n q =>
    cases q
    · exact ⟨h.1, rfl⟩
    · exact ⟨h.1, h.2.1, rfl⟩
    · exact ⟨h.1, h.2.1, rfl⟩
    · exact ⟨h.1, h.2.1, h.2.2.1, h.2.2.2.1, rfl⟩

/-! ## Parts of a source -/

/-- The open braces behind tokens of these types. -/
def runTypes : List TokenType → List BraceType → Option (List BraceType)
  | [], bs => some bs
  | ty :: tys, bs => (stepBraces ty bs).bind (runTypes tys)

theorem runTypes_append (a b : List TokenType) : ∀ bs, runTypes (a ++ b) bs = (runTypes a bs).bind (runTypes b) := by
  induction a with
  | nil => intro bs; rfl
  | cons t a ih =>
    intro bs
    simp only [List.cons_append, runTypes]
    cases stepBraces t bs with
    | none => rfl
    | some b' => exact ih b'

theorem trivia_neutral {ty : TokenType} (h : ty.isTrivia = true) : BraceFree ty := by
  intro bs
  cases ty <;> first | rfl | cases h

theorem runTypes_trivia : ∀ {tys : List TokenType}, (∀ x ∈ tys, x.isTrivia = true) → ∀ bs, runTypes tys bs = some bs
  | [], _, _ => rfl
  | ty :: tys, h, bs => by
    rw [runTypes, trivia_neutral (h ty (.head _)) bs]
    exact runTypes_trivia (fun x hx => h x (.tail _ hx)) bs

theorem runTypes_refs : ∀ {us : List TokRef}, (∀ u ∈ us, Sorted u) → ∀ bs, runTypes ((us.flatMap TokRef.flat).map Token.type) bs = runBraces us bs
  | [], _, _ => rfl
  | u :: us, h, bs => by
    obtain ⟨h1, h2, h3⟩ := h u (.head _)
    have e : ((u :: us).flatMap TokRef.flat).map Token.type =
        u.leading.map Token.type ++ (u.token.type :: (u.trailing.map Token.type ++ (us.flatMap TokRef.flat).map Token.type)) := by
      simp [TokRef.flat]
    have tr : ∀ {l : List Token}, (∀ x ∈ l, x.type.isTrivia = true) → ∀ b, runTypes (l.map Token.type) b = some b := by
      intro l hl b
      refine runTypes_trivia (fun x hx => ?_) b
      obtain ⟨y, hy, rfl⟩ := List.mem_map.1 hx
      exact hl y hy
    rw [e, runTypes_append, tr h2]
    show runTypes (u.token.type :: _) bs = _
    rw [runTypes, runBraces]
    cases stepBraces u.token.type bs with
    | none => rfl
    | some b =>
      show runTypes (_ ++ _) b = runBraces us b
      rw [runTypes_append, tr h3]
      exact runTypes_refs (fun x hx => h x (.tail _ hx)) b

/-- What stands in front of a token. -/
theorem lexes_drop : ∀ {ta : List TokenType} {bs : List BraceType} {s : Text} {tys : List TokenType}, tys ≠ [] → Lexes c bs s (ta ++ tys) →
    ∃ bs' rest, s = ta.flatMap TokenType.display ++ rest ∧ Lexes c bs' rest tys ∧ (c.has .luau = true → runTypes ta bs = some bs')
  | [], bs, s, tys, _, h => ⟨bs, s, rfl, h, fun _ => rfl⟩
  | ty :: ta, bs, s, tys, hne, h => by
    obtain ⟨b1, rest, rfl, h1, h2⟩ := lexes_token h (by simp [hne])
    obtain ⟨b2, rest', rfl, h3, h4⟩ := lexes_drop hne h2
    refine ⟨b2, rest', by simp, h3, fun hl => ?_⟩
    rw [runTypes, lexeme_step_braces hl h1]
    exact h4 hl

/-- Tokens by themselves. -/
theorem lexes_take : ∀ {tb : List TokenType} {bs base : List BraceType} {s : Text} {tys : List TokenType}, tys ≠ [] → Lexes c bs s (tb ++ tys) →
    (c.has .luau = true → runTypes tb base ≠ none) → Lexes c base (tb.flatMap TokenType.display) (tb ++ [.eof])
  | [], bs, base, s, tys, _, h, _ => .eof
  | ty :: tb, bs, base, s, tys, hne, h, hr => by
    obtain ⟨b1, rest, rfl, h1, h2⟩ := lexes_token h (by simp [hne])
    obtain ⟨b2, rest', rfl, -, -⟩ := lexes_drop hne h2
    have h1 := lexeme_cut h1
    cases hl : c.has .luau with
    | false =>
      have := lexes_take (base := base) hne h2 (fun e => absurd (e.symm.trans hl) (by decide))
      exact .token (lexeme_anywhere hl h1 base) this
    | true =>
      have hr := hr hl
      rw [runTypes] at hr
      cases e : stepBraces ty base with
      | none => rw [e] at hr; exact absurd rfl hr
      | some b3 =>
        rw [e] at hr
        exact .token (lexeme_moved hl h1 e) (lexes_take hne h2 fun _ => hr)

/-- Tokens within a source, of a tree, by themselves. -/
theorem lexes_slice {A B C : List TokRef} {s : Text} (hs : ∀ u ∈ A ++ (B ++ C), Sorted u) (hC : C ≠ []) (hB : Above B)
    (h : Lexes c [] s (((A ++ (B ++ C)).flatMap TokRef.flat).map Token.type)) :
    Lexes c [] (B.flatMap TokRef.display) ((B.flatMap TokRef.flat).map Token.type ++ [.eof]) := by
  rw [List.flatMap_append, List.map_append] at h
  have hne : (C.flatMap TokRef.flat).map Token.type ≠ [] := by
    cases C with
    | nil => exact absurd rfl hC
    | cons u C => simp [TokRef.flat]
  rw [List.flatMap_append, List.map_append] at h
  obtain ⟨bs, rest, -, h1, -⟩ := lexes_drop (by simp [hne]) h
  have e : B.flatMap TokRef.display = ((B.flatMap TokRef.flat).map Token.type).flatMap TokenType.display := by
    rw [List.flatMap_map, List.flatMap_assoc]
    congr 1
    funext u
    simp [TokRef.display, TokRef.flat, Token.display]
    rfl
  rw [e]
  refine lexes_take hne h1 fun hl => ?_
  obtain ⟨b', -, -, -, h2⟩ := lexes_drop hne h1
  have hsB : ∀ u ∈ B, Sorted u := fun u hu => hs u (by simp [hu])
  rw [runTypes_refs hsB] at h2 ⊢
  obtain ⟨j, -, hj⟩ := hB _ _ (h2 hl)
  rw [hj]
  simp


/-! ## White space and comments -/

theorem restOfLine_types : ∀ {ts ts' : List Token}, ts.map Token.type = ts'.map Token.type →
    (restOfLine ts).1.map Token.type = (restOfLine ts').1.map Token.type ∧ (restOfLine ts).2.map Token.type = (restOfLine ts').2.map Token.type
  | [], [], _ => ⟨rfl, rfl⟩
  | [], _ :: _, h => by simp at h
  | _ :: _, [], h => by simp at h
  | t :: ts, t' :: ts', h => by
    simp only [List.map_cons, List.cons.injEq] at h
    obtain ⟨h1, h2⟩ := restOfLine_types h.2
    simp only [restOfLine, h.1]
    split
    · split
      · exact ⟨by simp [h.1], h.2⟩
      · exact ⟨by simp [h.1, h1], h2⟩
    · exact ⟨rfl, by simp [h.1, h.2]⟩

theorem unplaced_eq {t u : TokRef} (h1 : t.leading.map Token.type = u.leading.map Token.type) (h2 : t.token.type = u.token.type)
    (h3 : t.trailing.map Token.type = u.trailing.map Token.type) : unplaced t = unplaced u := by
  have e : ∀ {a b : List Token}, a.map Token.type = b.map Token.type →
      a.map (fun x => (⟨⟨0, 0, 0⟩, ⟨0, 0, 0⟩, x.type⟩ : Token)) = b.map fun x => ⟨⟨0, 0, 0⟩, ⟨0, 0, 0⟩, x.type⟩ := by
    intro a b h
    have := congrArg (List.map fun ty : TokenType => (⟨⟨0, 0, 0⟩, ⟨0, 0, 0⟩, ty⟩ : Token)) h
    simpa [Function.comp_def] using this
  simp [unplaced, e h1, e h3, h2]

theorem plain_unplaced (t : TokRef) : plain (unplaced t) = plain t := by
  simp [plain, unplaced]

/-- The token references depend on the types only, up to positions. -/
theorem attaches_unplaced {ts : List Token} {us : List TokRef} (h : Attaches ts us) : ∀ {ts' : List Token} {us' : List TokRef}, Attaches ts' us' →
    ts'.map Token.type = ts.map Token.type → us'.map unplaced = us.map unplaced := by
  induction h with
  | nil =>
    intro ts' us' h' e
    have : ts' = [] := by simpa using e
    rw [attaches_none h' this]
  | @cons leading token rest refs h1 h2 _ ih =>
    intro ts' us' h' e
    cases h' with
    | nil => simp at e
    | @cons leading' token' rest' refs' h1' h2' h3' =>
      simp only [List.map_append, List.map_cons] at e
      have tr : ∀ {l : List Token}, (∀ x ∈ l, x.type.isTrivia = true) → ∀ z ∈ l.map Token.type, z.isTrivia = true := by
        intro l hl z hz
        obtain ⟨y, hy, rfl⟩ := List.mem_map.1 hz
        exact hl y hy
      obtain ⟨e1, e2, e3⟩ := split_trivia (tr h1') (tr h1) h2' h2 e
      obtain ⟨e4, e5⟩ := restOfLine_types e3
      rw [List.map_cons, List.map_cons, ih h3' e5, unplaced_eq (t := ⟨leading', token', _⟩) (u := ⟨leading, token, _⟩) e1 e2 e4]

theorem restOfLine_stop {e : Token} (he : ¬ Trails e.type) : ∀ {tr more : List Token}, restOfLine (tr ++ more) = (tr, more) →
    restOfLine (tr ++ [e]) = (tr, [e])
  | [], _, _ => by simp [restOfLine, he]
  | t :: tr, more, h => by
    simp only [List.cons_append, restOfLine] at h ⊢
    split at h
    · rename_i ht
      rw [if_pos ht]
      split at h
      · rename_i hl
        rw [if_pos hl]
        simp only [Prod.mk.injEq, List.cons.injEq, true_and] at h
        obtain ⟨h1, -⟩ := h
        subst h1
        rfl
      · rename_i hl
        rw [if_neg hl]
        simp only [Prod.mk.injEq, List.cons.injEq, true_and] at h
        have := restOfLine_stop he (tr := tr) (more := more) (Prod.ext h.1 h.2)
        rw [this]
    · simp at h

/-- The end of a file at some place. -/
def eofAt : TokRef := ⟨[], ⟨⟨0, 0, 0⟩, ⟨0, 0, 0⟩, .eof⟩, []⟩

/-- The token references of a part of a source. -/
theorem attaches_slice {A B C : List TokRef} (hC : C ≠ [])
    (h1 : ∀ a x y b, A ++ (B ++ C) = a ++ x :: y :: b → restOfLine (x.trailing ++ y.flat) = (x.trailing, y.flat))
    (hs : ∀ u ∈ A ++ (B ++ C), Sorted u) : Attaches (B.flatMap TokRef.flat ++ [eofAt.token]) (B ++ [eofAt]) := by
  have e : B.flatMap TokRef.flat ++ [eofAt.token] = (B ++ [eofAt]).flatMap TokRef.flat := by simp [TokRef.flat, eofAt]
  rw [e]
  refine attaches_of _ ?_ ?_ ?_
  · intro a x y b hab
    rcases List.eq_nil_or_concat b with rfl | ⟨b', z, rfl⟩
    · have : B ++ [eofAt] = (a ++ [x]) ++ [y] := by rw [hab]; simp
      obtain ⟨h2, h3⟩ := List.append_inj' this rfl
      cases h3
      subst h2
      cases C with
      | nil => exact absurd rfl hC
      | cons w C =>
        have := h1 (A ++ a) x w C (by simp)
        have := restOfLine_stop (e := eofAt.token) (by simp [eofAt, Trails]) this
        simpa [eofAt, TokRef.flat] using this
    · have : B ++ [eofAt] = (a ++ x :: y :: b') ++ [z] := by rw [hab]; simp
      obtain ⟨h2, -⟩ := List.append_inj' this rfl
      exact h1 (A ++ a) x y (b' ++ C) (by simp [h2])
  · intro u hu
    rcases List.mem_append.1 hu with hu | hu
    · obtain ⟨g1, g2, g3⟩ := hs u (by simp [hu])
      exact ⟨g1, fun x hx => (List.mem_append.1 hx).elim (g2 x) (g3 x)⟩
    · obtain rfl := List.mem_singleton.1 hu
      exact ⟨rfl, by simp [eofAt]⟩
  · intro u hu
    simp only [List.getLast?_append, List.getLast?_singleton, Option.some_or] at hu
    cases hu
    rfl

end FM
