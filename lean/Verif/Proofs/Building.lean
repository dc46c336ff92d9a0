import Verif.Proofs.Touch
import Verif.Proofs.Parser.Kinds
import Verif.Model.Ast.Build
import Verif.Props.Symbols

/-! Helper lemmas: trees made by hand. -/

namespace FM
open Spec Props Parser

variable {c : Cfg}

/-! ## White space -/

theorem filler_append {f g : Text} (hf : Filler c f) (hg : Filler c g) : Filler c (f ++ g) := by
  induction hf with
  | nil => exact hg
  | blank h _ ih => exact .blank h ih
  | line h1 h2 _ ih => simpa using Filler.line h1 h2 ih
  | long h _ ih => simpa using Filler.long h ih
  | cStyle h1 h2 _ ih => simpa using Filler.cStyle h1 h2 ih

theorem gap_append {f g : Text} (hf : Gap c f) (hg : Filler c g) : Gap c (f ++ g) := by
  refine ⟨filler_append hf.1 hg, ?_⟩
  cases f with
  | nil => cases hf.2
  | cons ch f => exact hf.2

theorem gap_of_blanks {f : Text} (h : f ≠ []) (hb : f.all (fun ch => ch == ' ' || ch == '\n') = true) : Gap c f := by
  refine ⟨?_, ?_⟩
  · clear h
    induction f with
    | nil => exact .nil
    | cons ch f ih =>
      simp only [List.all_cons, Bool.and_eq_true, Bool.or_eq_true, beq_iff_eq] at hb
      exact .blank (by rcases hb.1 with h | h <;> simp [IsBlank, h]) (ih hb.2)
  · cases f with
    | nil => exact absurd rfl h
    | cons ch f =>
      simp only [List.all_cons, Bool.and_eq_true, Bool.or_eq_true, beq_iff_eq] at hb
      rcases hb.1 with rfl | rfl <;> rfl

theorem spacing_gap {f g : Text} (hf : f = [] ∨ Gap c f) (hg : Gap c g) : Gap c (f ++ g) := by
  rcases hf with rfl | hf
  · exact hg
  · exact gap_append hf hg.1

theorem spacing_append {f g : Text} (hf : f = [] ∨ Gap c f) (hg : g = [] ∨ Gap c g) : (f = [] ∧ g = []) ∨ Gap c (f ++ g) := by
  rcases hg with rfl | hg
  · rcases hf with rfl | hf
    · exact .inl ⟨rfl, rfl⟩
    · exact .inr (gap_append hf .nil)
  · exact .inr (spacing_gap hf hg)

/-! ## Tidy lists -/

theorem tidy_cons {t : TokRef} {ts : List TokRef} (ht : TidyToken c t) (hts : Tidy c ts) (hj : ∀ u, ts.head? = some u → Joined c t u) : Tidy c (t :: ts) :=
  ⟨ht, hj, hts⟩

theorem tidy_head {t : TokRef} {ts : List TokRef} (h : Tidy c ts) (ht : ts.head? = some t) : TidyToken c t := by
  cases ts with
  | nil => cases ht
  | cons u us =>
    simp only [List.head?_cons, Option.some.injEq] at ht
    exact ht ▸ h.1

theorem tidy_append {xs ys : List TokRef} (hx : Tidy c xs) (hy : Tidy c ys) (hj : ∀ t u, xs.getLast? = some t → ys.head? = some u → Joined c t u) : Tidy c (xs ++ ys) := by
  induction xs with
  | nil => exact hy
  | cons t xs ih =>
    refine tidy_cons hx.1 (ih hx.2.2 fun t' u h1 h2 => hj t' u (by cases xs with | nil => cases h1 | cons => simpa using h1) h2) fun u hu => ?_
    cases xs with
    | nil => exact hj t u rfl (by simpa using hu)
    | cons x xs => exact hx.2.1 u (by simpa using hu)

theorem tidy_last {xs : List TokRef} {t : TokRef} (h : Tidy c xs) (ht : xs.getLast? = some t) : TidyToken c t := by
  induction xs with
  | nil => cases ht
  | cons x xs ih =>
    cases xs with
    | nil => simp only [List.getLast?_singleton, Option.some.injEq] at ht; exact ht ▸ h.1
    | cons y ys => exact ih h.2.2 (by simpa using ht)

/-- White space behind the token: anything may follow. -/
theorem tidy_cons_gap {t : TokRef} {ts : List TokRef} (ht : TidyToken c t) (hg : Gap c (text t.trailing)) (hts : Tidy c ts) : Tidy c (t :: ts) :=
  tidy_cons ht hts fun _ hu => .inl (gap_append hg (tidy_head hts hu).2.1)

/-- White space in front of the token: it may follow anything. -/
theorem tidy_append_gap {xs ts : List TokRef} {u : TokRef} (hx : Tidy c xs) (hts : Tidy c (u :: ts)) (hg : Gap c (text u.leading)) : Tidy c (xs ++ u :: ts) :=
  tidy_append hx hts fun t v h1 h2 => by
    simp only [List.head?_cons, Option.some.injEq] at h2
    subst h2
    exact .inl (spacing_gap (tidy_last hx h1).2.2 hg)

theorem tidy_append_last_gap {xs ys : List TokRef} (hx : Tidy c xs) (hy : Tidy c ys) (hg : ∀ t, xs.getLast? = some t → Gap c (text t.trailing)) : Tidy c (xs ++ ys) :=
  tidy_append hx hy fun t _ h1 h2 => .inl (gap_append (hg t h1) (tidy_head hy h2).2.1)

/-- A token starting with a soft character may follow anything. -/
theorem tidy_append_soft (hc : c.Reachable) {xs ts : List TokRef} {u : TokRef} (hx : Tidy c xs) (hts : Tidy c (u :: ts))
    (hl : text u.leading = [] ∨ Gap c (text u.leading)) (hs : ∃ ch w, u.token.type.display = ch :: w ∧ IsSoft ch) : Tidy c (xs ++ u :: ts) :=
  tidy_append hx hts fun t v h1 h2 => by
    simp only [List.head?_cons, Option.some.injEq] at h2
    subst h2
    have ht := tidy_last hx h1
    rcases spacing_append ht.2.2 hl with h | h
    · exact .inr ⟨h.1, h.2, touch_soft hc ht.1 hts.1.1 hs⟩
    · exact .inl h

/-- A token that may touch anything. -/
theorem tidy_cons_touch {t : TokRef} {ts : List TokRef} (ht : TidyToken c t) (hts : Tidy c ts) (hn : NoComment c ts)
    (hs : ∀ u, ts.head? = some u → MayTouch c t.token.type u.token.type) : Tidy c (t :: ts) :=
  tidy_cons ht hts fun u hu => by
    rcases spacing_append ht.2.2 (hn u hu) with h | h
    · exact .inr ⟨h.1, h.2, hs u hu⟩
    · exact .inl h

theorem noComment_append {xs ys : List TokRef} (hx : NoComment c xs) (hy : NoComment c ys) : NoComment c (xs ++ ys) := by
  cases xs with
  | nil => exact hy
  | cons => exact hx

theorem noComment_cons {t : TokRef} {ts : List TokRef} (h : text t.leading = [] ∨ Gap c (text t.leading)) : NoComment c (t :: ts) := by
  intro u hu
  simp only [List.head?_cons, Option.some.injEq] at hu
  exact hu ▸ h

/-! ## Printing -/

theorem tidy_laid : ∀ {ts : List TokRef}, Tidy c ts → ∃ f s, Filler c f ∧ Laid c (ts.map (·.token.type)) s ∧ ts.flatMap TokRef.display = f ++ s ∧
    ∀ t, ts.head? = some t → f = text t.leading
  | [], _ => ⟨[], [], .nil, .nil, rfl, nofun⟩
  | t :: ts, h => by
    obtain ⟨f, s, hf, hl, e, hh⟩ := tidy_laid h.2.2
    have hd : t.display = text t.leading ++ t.token.type.display ++ text t.trailing := by
      simp [TokRef.display, Spec.text, Token.display]
    refine ⟨text t.leading, t.token.type.display ++ (text t.trailing ++ f ++ s), h.1.2.1, ?_, ?_, ?_⟩
    · cases ts with
      | nil =>
        cases hl
        simp only [List.flatMap_nil, List.append_nil] at e
        subst e
        simp only [List.append_nil, List.map_cons, List.map_nil]
        rcases h.1.2.2 with ht | ht
        · rw [ht, List.append_nil]; exact .last h.1.1
        · have := Laid.gap h.1.1 ht .nil
          simpa using this
      | cons u us =>
        have hj := h.2.1 u rfl
        rw [hh u rfl]
        rcases hj with hj | ⟨h1, h2, h3⟩
        · have := Laid.gap h.1.1 hj hl
          simpa using this
        · rw [h1, h2, List.nil_append, List.nil_append]
          exact .touching h3 hl
    · rw [List.flatMap_cons, e, hd]
      simp
    · intro u hu
      simp only [List.head?_cons, Option.some.injEq] at hu
      rw [hu]

/-! ## The tokens the constructors make -/

theorem symbol_alone (hc : c.Reachable) {y : Symbol} (he : Enabled c y) : Alone c (.symbol y) := by
  obtain ⟨stop, l', h1, h2⟩ := processNext_symbol hc he (l := ⟨⟨y.text ++ [], ⟨0, 0, 0⟩⟩, false, []⟩) (rest := []) rfl rfl nofun
  have hne : TokenType.display (.symbol y) ≠ [] := by cases y <;> decide
  have := Chain.cons (c := c) (ty := .symbol y) (f := []) (s := []) (rest := []) ⟨rfl, nofun, nofun, hne⟩ ⟨_, _, _, _, _, h1, rfl, h2⟩
    follows_nil (fun _ => nofun) .nil .nil
  have := chain_reads this
  exact ⟨(by rintro ⟨x, k, h⟩; cases h), by simpa using this⟩

theorem scans_symbol (hc : c.Reachable) {y : Symbol} (he : Enabled c y) {rest : Text}
    (hrest : ∀ ch, rest.head? = some ch → (IsWord y.text → isWordChar ch = false) ∧ Calm ch) : Scans c (.symbol y) rest := by
  obtain ⟨stop, l', h1, h2⟩ := processNext_symbol_before hc he (l := ⟨⟨y.text ++ rest, ⟨0, 0, 0⟩⟩, false, []⟩) rfl rfl hrest
  exact ⟨_, _, _, _, _, h1, rfl, h2⟩

/-- A symbol other than a word and `[` may touch a token that starts with a word character or a quote. -/
theorem touch_symbol (hc : c.Reachable) {y : Symbol} {ty : TokenType} (he : Enabled c y) (h : Alone c ty)
    (hw : ¬ IsWord y.text) (hb : y ≠ .leftBracket) (hd : ∀ ch, ty.display.head? = some ch → Calm ch) : MayTouch c (.symbol y) ty :=
  touch_scans hc (symbol_alone hc he) h (scans_symbol hc he fun ch hch => ⟨fun h => absurd h hw, hd ch hch⟩)
    fun e => hb (Symbol.text_inj (y := y) (z := .leftBracket) e)

theorem alone_name (hc : c.Reachable) {x : Text} (h : Alone c (.identifier x)) : IsWord x ∧ ¬ Reserved c x := by
  obtain ⟨_, _, rs, hl, he, ht⟩ := h
  have : (TokenType.identifier x) ∈ (tokensOf rs).map (·.token.type) := by rw [ht]; simp
  obtain ⟨u, hu, e⟩ := List.mem_map.1 this
  obtain ⟨before, rest, h1, h2⟩ := wf_of_mem hc hl (x := u.token) (by
    simp only [flatTokens, List.mem_flatMap]
    exact ⟨u, hu, by simp [TokRef.flat]⟩) (by rw [e]; rfl)
  rw [e] at h2
  exact ⟨h2.1, h2.2.1⟩

theorem alone_word (hc : c.Reachable) {x : Text} (hw : IsWord x) (hr : ¬ Reserved c x) : Alone c (.identifier x) := by
  obtain ⟨ty, stop, l', h1, h2, h3⟩ := word_token hc (l := ⟨⟨x ++ [], ⟨0, 0, 0⟩⟩, false, []⟩) (rest := []) rfl hw rfl
  rcases h3 with ⟨h3, _⟩ | ⟨_, rfl⟩
  · exact absurd h3 hr
  · have hne : TokenType.display (.identifier x) ≠ [] := by rintro rfl; exact hw.elim
    have := Chain.cons (c := c) (ty := .identifier x) (f := []) (s := []) (rest := []) ⟨rfl, nofun, nofun, hne⟩ ⟨_, _, _, _, _, h1, rfl, h2⟩
      follows_nil (fun _ => nofun) .nil .nil
    have := chain_reads this
    exact ⟨(by rintro ⟨x, k, h⟩; cases h), by simpa using this⟩

/-- A name may touch a token that does not start with a word character. -/
theorem touch_name (hc : c.Reachable) {x : Text} {ty : TokenType} (hx : Alone c (.identifier x)) (h : Alone c ty)
    (hd : startsWith isWordChar ty.display = false) : MayTouch c (.identifier x) ty := by
  obtain ⟨h1, h2⟩ := alone_name hc hx
  obtain ⟨ty', stop, l', h3, h4, h5⟩ := word_token hc (l := ⟨⟨x ++ ty.display, ⟨0, 0, 0⟩⟩, false, []⟩) rfl h1 hd
  rcases h5 with ⟨h5, _⟩ | ⟨_, rfl⟩
  · exact absurd h5 h2
  · refine touch_scans hc hx h ⟨_, _, _, _, _, h3, rfl, h4⟩ ?_
    rintro rfl
    exact absurd h1.1 (by decide)

/-- A token of this symbol, with this text in front of it and behind it. -/
structure Made (t : TokRef) (before : Text) (y : Symbol) (behind : Text) : Prop where
  type : t.token.type = .symbol y
  leading : text t.leading = before
  trailing : text t.trailing = behind

/-- The token was made, with the symbol and the white space. -/
def makes (o : Outcome TokRef) (before : Text) (y : Symbol) (behind : Text) : Bool :=
  match o with
  | .ok t => t.token.type == .symbol y && text t.leading == before && text t.trailing == behind
  | _ => false

theorem made_of_makes {o : Outcome TokRef} {before behind : Text} {y : Symbol} (h : makes o before y behind = true) : ∃ t, o = .ok t ∧ Made t before y behind := by
  unfold makes at h
  split at h
  · simp only [Bool.and_eq_true, beq_iff_eq] at h
    exact ⟨_, rfl, h.1.1, h.1.2, h.2⟩
  · cases h

/-- The texts given to `basic_symbol`. -/
def basics : List (Text × Symbol × Text) :=
  [([], .kReturn, c!" "), ([], .leftBrace, c!" "), (c!" ", .rightBrace, []), ([], .leftParen, []), ([], .rightParen, []),
   (c!"\n", .kEnd, []), ([], .kFunction, []), ([], .kFor, c!" "), (c!" ", .equal, c!" "), ([], .comma, c!" "), (c!" ", .kDo, c!"\n"),
   (c!" ", .kIn, c!" "), ([], .kIf, c!" "), (c!" ", .kThen, []), ([], .kElseIf, c!" "), (c!" ", .kThen, c!"\n"), ([], .kWhile, c!" "),
   ([], .kEnd, c!"\n"), ([], .kRepeat, c!"\n"), (c!"\n", .kUntil, c!" "), ([], .colon, []), ([], .kLocal, c!" "), ([], .kFunction, c!" "),
   ([], .kDo, c!"\n")]

/-- The texts given to `symbol` that every set of features has. -/
def symbols : List (Text × Symbol × Text) :=
  [([], .lessThan, []), ([], .greaterThan, []), ([], .colon, c!" "), (c!" ", .equal, c!" "), ([], .kIf, c!" "), (c!" ", .kThen, []),
   (c!" ", .kElse, c!" "), (c!" ", .kElseIf, c!" "), (c!" ", .kThen, c!" ")]

theorem basics_made : ∀ r ∈ basics, ∀ a b d e g i, makes (Build.basic ⟨a, b, d, e, g, i⟩ (r.1 ++ r.2.1.text ++ r.2.2)) r.1 r.2.1 r.2.2 = true := by decide +kernel

theorem symbols_made : ∀ r ∈ symbols, ∀ a b d e g i, makes (Build.symbol ⟨a, b, d, e, g, i⟩ (r.1 ++ r.2.1.text ++ r.2.2)) r.1 r.2.1 r.2.2 = true := by decide +kernel

theorem goto_made : ∀ a b d e g i, b = true ∨ g = true → makes (Build.symbol ⟨a, b, d, e, g, i⟩ c!"goto") [] .kGoto [] = true := by decide +kernel

theorem colons_made : ∀ a b d e g i, a = true ∨ b = true ∨ g = true → makes (Build.symbol ⟨a, b, d, e, g, i⟩ c!"::") [] .twoColons [] = true := by decide +kernel

theorem at_made : ∀ b d e g i, makes (Build.symbol ⟨true, b, d, e, g, i⟩ c!"@") [] .atSign [] = true := by decide +kernel

theorem basic_made (f : Features) {before behind : Text} {y : Symbol} (h : (before, y, behind) ∈ basics) :
    ∃ t, Build.basic f (before ++ y.text ++ behind) = .ok t ∧ Made t before y behind :=
  made_of_makes (basics_made _ h _ _ _ _ _ _)

theorem symbol_made (f : Features) {before behind : Text} {y : Symbol} (h : (before, y, behind) ∈ symbols) :
    ∃ t, Build.symbol f (before ++ y.text ++ behind) = .ok t ∧ Made t before y behind :=
  made_of_makes (symbols_made _ h _ _ _ _ _ _)

theorem core_enabled : ∀ r ∈ basics ++ symbols, introducedBy r.2.1.text = [] := by decide +kernel

theorem Made.tidy {t : TokRef} {before behind : Text} {y : Symbol} (h : Made t before y behind) (hc : c.Reachable) (he : Enabled c y)
    (h1 : before.all (fun ch => ch == ' ' || ch == '\n') = true) (h2 : behind.all (fun ch => ch == ' ' || ch == '\n') = true) : TidyToken c t := by
  refine ⟨h.type ▸ symbol_alone hc he, ?_, ?_⟩
  · rw [h.leading]
    by_cases hb : before = []
    · rw [hb]; exact .nil
    · exact (gap_of_blanks hb h1).1
  · rw [h.trailing]
    by_cases hb : behind = []
    · exact .inl hb
    · exact .inr (gap_of_blanks hb h2)

theorem core (hc : c.Reachable) (f : Features) (txt before : Text) (y : Symbol) (behind : Text) (h : (before, y, behind) ∈ basics)
    (ht : before ++ y.text ++ behind = txt := by rfl) : ∃ t, Build.basic f txt = .ok t ∧ Made t before y behind ∧ TidyToken c t := by
  subst ht
  obtain ⟨t, e, m⟩ := basic_made f h
  have hb : ∀ r ∈ basics, r.1.all (fun ch => ch == ' ' || ch == '\n') = true ∧ r.2.2.all (fun ch => ch == ' ' || ch == '\n') = true := by decide
  exact ⟨t, e, m, m.tidy hc (.inl (core_enabled _ (List.mem_append_left _ h))) (hb _ h).1 (hb _ h).2⟩

theorem core' (hc : c.Reachable) (f : Features) (txt before : Text) (y : Symbol) (behind : Text) (h : (before, y, behind) ∈ symbols)
    (ht : before ++ y.text ++ behind = txt := by rfl) : ∃ t, Build.symbol f txt = .ok t ∧ Made t before y behind ∧ TidyToken c t := by
  subst ht
  obtain ⟨t, e, m⟩ := symbol_made f h
  have hb : ∀ r ∈ symbols, r.1.all (fun ch => ch == ' ' || ch == '\n') = true ∧ r.2.2.all (fun ch => ch == ' ' || ch == '\n') = true := by decide
  exact ⟨t, e, m, m.tidy hc (.inl (core_enabled _ (List.mem_append_right _ h))) (hb _ h).1 (hb _ h).2⟩

/-- White space behind a made token. -/
theorem Made.behind {t : TokRef} {before behind : Text} {y : Symbol} (h : Made t before y behind) (hne : behind ≠ [] := by decide)
    (hb : behind.all (fun ch => ch == ' ' || ch == '\n') = true := by decide) : Gap c (text t.trailing) := by
  rw [h.trailing]; exact gap_of_blanks hne hb

/-- White space in front of a made token. -/
theorem Made.before {t : TokRef} {before behind : Text} {y : Symbol} (h : Made t before y behind) (hne : before ≠ [] := by decide)
    (hb : before.all (fun ch => ch == ' ' || ch == '\n') = true := by decide) : Gap c (text t.leading) := by
  rw [h.leading]; exact gap_of_blanks hne hb

theorem Made.is {t : TokRef} {before behind : Text} {y : Symbol} (h : Made t before y behind) : (Term.sym [y]).Is t := ⟨y, by simp, h.type⟩

theorem Made.soft {t : TokRef} {before behind : Text} {y : Symbol} (h : Made t before y behind)
    (hy : y ∈ [Symbol.comma, .semicolon, .leftParen, .rightParen, .leftBrace, .rightBrace] := by decide) :
    ∃ ch w, t.token.type.display = ch :: w ∧ IsSoft ch := by
  rw [h.type]
  simp only [List.mem_cons, List.not_mem_nil, or_false] at hy
  rcases hy with rfl | rfl | rfl | rfl | rfl | rfl <;> exact ⟨_, _, rfl, by simp [IsSoft]⟩

/-- Parentheses may touch anything. -/
theorem tidy_cons_paren (hc : c.Reachable) {t : TokRef} {ts : List TokRef} {before behind : Text} {y : Symbol} (hm : Made t before y behind)
    (ht : TidyToken c t) (hts : Tidy c ts) (hn : NoComment c ts) (hy : y = .leftParen ∨ y = .rightParen := by simp) : Tidy c (t :: ts) := by
  refine tidy_cons_touch ht hts hn fun u hu => ?_
  have hu := (tidy_head hts hu).1
  have ht := ht.1
  rw [hm.type] at ht ⊢
  rcases hy with rfl | rfl
  · exact touch_scans hc ht hu (scans_leftParen _) nofun
  · exact touch_scans hc ht hu (scans_rightParen _) nofun

/-- The words `type` and `export`. -/
theorem word_tidy (hc : c.Reachable) {x : Text} (h : x ∈ [c!"type", c!"export"]) :
    TidyToken c (Build.word x) ∧ Gap c (text (Build.word x).trailing) ∧ (Term.word [x]).Is (Build.word x) := by
  have hg : Gap c (text (Build.word x).trailing) := gap_of_blanks (f := c!" ") (by decide) (by decide)
  refine ⟨⟨alone_word hc ?_ ?_, .nil, .inr hg⟩, hg, ⟨x, by simp, rfl⟩⟩
  all_goals
    simp only [List.mem_cons, List.not_mem_nil, or_false] at h
    rcases h with rfl | rfl
  · exact ⟨by decide, by decide, by decide⟩
  · exact ⟨by decide, by decide, by decide⟩
  all_goals
    rintro (h | ⟨h, _⟩)
    · revert h; decide
    · cases h

theorem block_readable : Readable c (.cat .block) Build.block := by
  refine ⟨⟨rfl, rfl, ?_, trivial⟩, ?_, ?_⟩
  · simp [production, ConformsAll, Conforms, Build.noVec, Build.absent, ConformsEach]
  · show Tidy c []
    trivial
  · intro _
    simp [Build.block, Build.noVec, Build.absent, Chosen, Node.children, unasserteds]

theorem noItems_readable {p : Part} {seps : List Symbol} {style : Spec.Style} (h : style ≠ .nonempty := by decide) : Readable c (.list p seps style) Build.noItems := by
  refine ⟨⟨trivial, nofun, fun e => absurd e h, nofun⟩, ?_, fun _ => by simp [Build.noItems, Chosen]⟩
  show Tidy c []
  trivial

theorem tidy_one {t : TokRef} (h : TidyToken c t) : Tidy c [t] := ⟨h, nofun, trivial⟩

theorem flatNames_absent {p : Part} {seps : List Symbol} : ∀ {ps : List Node} {m n : Nat}, ConformsPairs c p seps ps →
    flatNames ps (List.replicate m (.node .absent [])) (List.replicate n (.node .absent [])) = (Node.node .punct ps).flat
  | [], _, _, _ => by simp [flatNames, joinNames]
  | q :: ps, m, n, h => by
    have hq : flatNames ps (List.replicate (m - 1) (.node .absent [])) (List.replicate (n - 1) (.node .absent [])) = (Node.node .punct ps).flat ∧
        (part (q.children.map Node.flat) 0 ++ part (q.children.map Node.flat) 1 = q.flat) := by
      unfold ConformsPairs at h
      split at h
      · rename_i e; cases e
      · rename_i cs ns e
        cases e
        refine ⟨flatNames_absent h.2, ?_⟩
        rcases cs with _ | ⟨x, _ | ⟨y, cs⟩⟩ <;> simp [ConformsAll] at h ⊢ <;> simp [part]
      · rename_i cs ns e
        cases e
        refine ⟨flatNames_absent h.2, ?_⟩
        rcases cs with _ | ⟨x, _ | ⟨y, _ | ⟨z, cs⟩⟩⟩ <;> simp [ConformsAll] at h ⊢ <;> simp [part]
      · exact h.elim
    obtain ⟨h1, h2⟩ := hq
    have hp : ∀ k, part ((List.replicate k (Node.node .absent [])).map Node.flat) 0 = [] := by
      intro k; cases k <;> simp [part, List.replicate_succ]
    simp only [flatNames] at h1 ⊢
    simp only [List.map_cons, joinNames, hp, List.append_nil, if_true, flat_punct_plain, List.flatMap_cons]
    rw [h2, ← List.map_tail, ← List.map_tail, List.tail_replicate, List.tail_replicate, h1, flat_punct_plain]

theorem word_calm {ch : Char} (h : isWordChar ch = true) (hd : ¬ ('0' ≤ ch ∧ ch ≤ '9')) : Calm ch := by
  refine ⟨?_, fun hm => ?_⟩
  · simpa [isDigit] using hd
  · simp only [List.mem_cons, List.not_mem_nil, or_false] at hm
    rcases hm with rfl | rfl | rfl | rfl | rfl | rfl | rfl | rfl | rfl <;> exact absurd h (by decide)

theorem flat_ne_nil_wrap {k : Kind} {p : Part} {o e : Symbol} {cs : List Node} (hk : k.wraps = true) (h : ConformsAll c [.span o e, p] cs) :
    ∃ t ts, (Node.node k cs).flat = t :: ts ∧ t.token.type = .symbol o := by
  rcases cs with _ | ⟨s, _ | ⟨x, _ | ⟨z, cs⟩⟩⟩ <;> simp only [ConformsAll, and_false, and_true] at h
  obtain ⟨hs, _⟩ := h
  cases s with
  | tok t => exact hs.elim
  | node k' cs =>
    cases k' <;> simp only [Conforms] at hs
    rcases cs with _ | ⟨a, _ | ⟨b, _ | ⟨z, cs⟩⟩⟩ <;> simp only [ConformsAll, and_false, and_true] at hs
    obtain ⟨ha, hb⟩ := hs
    cases a with
    | node k cs => exact ha.elim
    | tok a =>
      cases b with
      | node k cs => exact hb.elim
      | tok b =>
        obtain ⟨z, hz, e⟩ := ha
        simp only [List.mem_singleton] at hz
        refine ⟨a, x.flat ++ [b], ?_, hz ▸ e⟩
        exact flat_wrap hk a b x

/-- A function body starts with `(` or `<`. -/
theorem body_starts {n : Node} (h : Conforms c (.cat .funcBody) n) : ∃ o ts, n.flat = o :: ts ∧ startsWith isWordChar o.token.type.display = false := by
  cases n with
  | tok t => exact h.elim
  | node k cs =>
    obtain ⟨hk, _, h, _⟩ := h
    cases k <;> simp [Kind.cat] at hk
    rcases cs with _ | ⟨g, _ | ⟨s, _ | ⟨ps, _ | ⟨ts, _ | ⟨r, _ | ⟨b, _ | ⟨e, _ | ⟨z, cs⟩⟩⟩⟩⟩⟩⟩⟩ <;> simp only [production, ConformsAll, and_false, false_and] at h
    obtain ⟨hg, hs, hps, hts, _⟩ := h
    have hg' : g.flat = [] ∨ ∃ o ts, g.flat = o :: ts ∧ o.token.type = .symbol .lessThan := by
      cases g with
      | tok t => exact hg.elim
      | node k cs =>
        cases k <;> simp only [Conforms] at hg
        · subst hg; simp
        · rcases cs with _ | ⟨x, _ | ⟨y, cs⟩⟩ <;> simp only [ConformsAll, and_false, and_true] at hg
          cases x with
          | tok t => exact hg.elim
          | node k cs =>
            obtain ⟨hk, _, hg, _⟩ := hg
            cases k <;> simp [Kind.cat] at hk
            obtain ⟨t, ts, e1, e2⟩ := flat_ne_nil_wrap (k := .genericDecl) rfl hg
            exact .inr ⟨t, ts, by simpa using e1, e2⟩
    have hs' : ∃ o e, s = Node.spanOf (.tok o) (.tok e) ∧ o.token.type = .symbol .leftParen := by
      cases s with
      | tok t => exact hs.elim
      | node k cs =>
        cases k <;> simp only [Conforms] at hs
        rcases cs with _ | ⟨x, _ | ⟨y, _ | ⟨z, cs⟩⟩⟩ <;> simp only [ConformsAll, and_false, and_true] at hs
        obtain ⟨hx, hy⟩ := hs
        cases x with
        | node k cs => exact hx.elim
        | tok x =>
          cases y with
          | node k cs => exact hy.elim
          | tok y =>
            obtain ⟨z, hz, e⟩ := hx
            simp only [List.mem_singleton] at hz
            exact ⟨x, y, rfl, hz ▸ e⟩
    obtain ⟨o, e', rfl, ho⟩ := hs'
    cases ps with
    | tok t => exact hps.elim
    | node k ps =>
      cases k <;> simp only [Conforms] at hps
      cases ts with
      | tok t => exact hts.elim
      | node k ts =>
        cases k <;> simp only [Conforms] at hts
        rw [flat_funcBody]
        rcases hg' with hg' | ⟨g1, gs, hg', hg1⟩
        · rw [hg', List.nil_append]
          exact ⟨_, _, rfl, by rw [ho]; rfl⟩
        · rw [hg', List.cons_append]
          exact ⟨_, _, rfl, by rw [hg1]; rfl⟩

/-- A list of names ends with a name. -/
theorem names_last {seps : List Symbol} : ∀ {ps : List Node}, ConformsPairs c .name seps ps → (∀ q, ps.getLast? = some q → kindOf q = some .pairEnd) → ps ≠ [] →
    ∃ xs t, (Node.node .punct ps).flat = xs ++ [t] ∧ Term.name.Is t
  | [], _, _, hne => absurd rfl hne
  | [q], h, hl, _ => by
    have hq := hl q rfl
    cases q with
    | tok t => cases hq
    | node k cs =>
      simp only [kindOf, Option.some.injEq] at hq
      subst hq
      obtain ⟨h, _⟩ := h
      rcases cs with _ | ⟨x, _ | ⟨y, cs⟩⟩ <;> simp only [ConformsAll, and_false, and_true] at h
      cases x with
      | node k cs => exact h.elim
      | tok x => exact ⟨[], x, by simp, h⟩
  | q :: r :: ps, h, hl, _ => by
    have h2 : ConformsPairs c .name seps (r :: ps) := by
      unfold ConformsPairs at h
      split at h
      · rename_i e; cases e
      · rename_i e; cases e; exact h.2
      · rename_i e; cases e; exact h.2
      · exact h.elim
    obtain ⟨xs, t, e, ht⟩ := names_last h2 (fun q hq => hl q (by simpa using hq)) (by simp)
    refine ⟨q.flat ++ xs, t, ?_, ht⟩
    rw [List.append_assoc, ← e]
    simp

/-- A function name ends with a name. -/
theorem functionName_last {n : Node} (h : Conforms c (.cat .functionName) n) : ∃ xs t, n.flat = xs ++ [t] ∧ Term.name.Is t := by
  cases n with
  | tok t => exact h.elim
  | node k cs =>
    obtain ⟨hk, _, h, _⟩ := h
    cases k <;> simp [Kind.cat] at hk
    rcases cs with _ | ⟨ns, _ | ⟨m, _ | ⟨z, cs⟩⟩⟩ <;> simp only [production, ConformsAll, and_false, and_true] at h
    obtain ⟨h1, h2⟩ := h
    cases m with
    | tok t => exact h2.elim
    | node k ms =>
      cases k <;> simp only [Conforms] at h2
      · subst h2
        cases ns with
        | tok t => exact h1.elim
        | node k ns =>
          cases k <;> simp only [Conforms] at h1
          obtain ⟨xs, t, e, ht⟩ := names_last h1.1 (h1.2.2.2 (by decide)) (h1.2.2.1 rfl)
          exact ⟨xs, t, by rw [← e]; simp, ht⟩
      · rcases ms with _ | ⟨x, _ | ⟨y, ms⟩⟩ <;> simp only [ConformsAll, and_false, and_true] at h2
        cases x with
        | tok t => exact h2.elim
        | node k xs =>
          cases k <;> simp only [Conforms] at h2
          rcases xs with _ | ⟨x, _ | ⟨y, _ | ⟨z, xs⟩⟩⟩ <;> simp only [ConformsAll, and_false, and_true] at h2
          obtain ⟨_, h2⟩ := h2
          cases y with
          | node k cs => exact h2.elim
          | tok y => exact ⟨ns.flat ++ x.flat, y, by simp, h2⟩

/-- The key of a field of a table type ends with a name or `]`. -/
theorem fieldKey_last {n : Node} (h : Conforms c (.cat .typeFieldKey) n) : ∃ xs t, n.flat = xs ++ [t] ∧ (Term.name.Is t ∨ t.token.type = .symbol .rightBracket) := by
  cases n with
  | tok t => exact h.elim
  | node k cs =>
    obtain ⟨hk, _, h, _⟩ := h
    cases k <;> simp [Kind.cat] at hk
    · rcases cs with _ | ⟨x, _ | ⟨y, cs⟩⟩ <;> simp only [production, ConformsAll, and_false, and_true] at h
      cases x with
      | node k cs => exact h.elim
      | tok x => exact ⟨[], x, by simp, .inl h⟩
    · rcases cs with _ | ⟨s, _ | ⟨x, _ | ⟨z, cs⟩⟩⟩ <;> simp only [production, ConformsAll, and_false, and_true] at h
      obtain ⟨hs, _⟩ := h
      cases s with
      | tok t => exact hs.elim
      | node k' cs =>
        cases k' <;> simp only [Conforms] at hs
        rcases cs with _ | ⟨a, _ | ⟨b, _ | ⟨z, cs⟩⟩⟩ <;> simp only [ConformsAll, and_false, and_true] at hs
        obtain ⟨ha, hb⟩ := hs
        cases a with
        | node k cs => exact ha.elim
        | tok a =>
          cases b with
          | node k cs => exact hb.elim
          | tok b =>
            obtain ⟨z, hz, e⟩ := hb
            simp only [List.mem_singleton] at hz
            refine ⟨a :: x.flat, b, ?_, .inr (hz ▸ e)⟩
            exact flat_wrap (k := .keyIndex) rfl a b x

theorem scans_rightBracket (rest : Text) : Scans c (.symbol .rightBracket) rest :=
  ⟨⟨0, 0, 0⟩, false, [], _, _, rfl, rfl, rfl⟩

theorem scans_twoColons (hl : c.has .luau = true) (rest : Text) : Scans c (.symbol .twoColons) rest := by
  have ha : c.hasAny [.lua52, .luau, .luajit] = true := by
    rw [Cfg.hasAny_iff]
    exact .inr ⟨.luau, by decide, hl⟩
  have h : ∃ stop l', processNext c ⟨⟨':' :: ':' :: rest, ⟨0, 0, 0⟩⟩, false, []⟩ = .ok (some (.ok ⟨⟨0, 0, 0⟩, stop, .symbol .twoColons⟩), l') ∧ l'.src.rest = rest := by
    simp [processNext, readPlain, isIdentStart, isDigit, readGated, symTok, create, Lx.finish, Src.consume, Src.current, Src.advance, ha]
    exact ⟨_, _, ⟨rfl, rfl⟩, rfl⟩
  obtain ⟨stop, l', h1, h2⟩ := h
  exact ⟨_, _, _, _, _, h1, rfl, h2⟩

/-- Without the shifts of Lua 5.3, `<` and `>` are read alone if `=` does not follow. -/
theorem scans_angle (hv : c.hasAny [.lua53, .cfxlua] = false) {y : Symbol} (hy : y = .lessThan ∨ y = .greaterThan) {rest : Text} (hr : rest.head? ≠ some '=') :
    Scans c (.symbol y) rest := by
  have h : ∃ stop l', processNext c ⟨⟨y.text ++ rest, ⟨0, 0, 0⟩⟩, false, []⟩ = .ok (some (.ok ⟨⟨0, 0, 0⟩, stop, .symbol y⟩), l') ∧ l'.src.rest = rest := by
    have he : ∀ p : Position, Src.consume ⟨rest, p⟩ '=' = (false, ⟨rest, p⟩) := by
      intro p
      cases rest with
      | nil => rfl
      | cons ch r => simp at hr; simp [Src.consume, Src.current, hr]
    rcases hy with rfl | rfl <;>
      simp [Symbol.text, processNext, readPlain, isIdentStart, isDigit, readAngle, symTok, create, Lx.finish, Src.advance, hv, he] <;>
      exact ⟨_, _, ⟨rfl, rfl⟩, rfl⟩
  obtain ⟨stop, l', h1, h2⟩ := h
  exact ⟨_, _, _, _, _, h1, rfl, h2⟩

/-- Type parameters start with a name. -/
theorem generics_start {n : Node} (h : Conforms c (.list (.cat .genericDeclParam) [.comma] .nonempty) n) : ∃ t ts, n.flat = t :: ts ∧ Term.name.Is t := by
  have param : ∀ {n : Node}, Conforms c (.cat .genericDeclParam) n → ∃ t ts, n.flat = t :: ts ∧ Term.name.Is t := by
    intro n h
    cases n with
    | tok t => exact h.elim
    | node k cs =>
      obtain ⟨hk, _, h, _⟩ := h
      cases k <;> simp [Kind.cat] at hk
      rcases cs with _ | ⟨x, _ | ⟨y, _ | ⟨z, cs⟩⟩⟩ <;> simp only [production, ConformsAll, and_false, and_true] at h
      obtain ⟨h, _⟩ := h
      cases x with
      | tok t => exact h.elim
      | node k cs =>
        obtain ⟨hk, _, h, _⟩ := h
        cases k <;> simp [Kind.cat] at hk
        all_goals
          rcases cs with _ | ⟨x, cs⟩ <;> simp only [production, ConformsAll] at h
          obtain ⟨h, _⟩ := h
          cases x with
          | node k cs => exact h.elim
          | tok x => exact ⟨x, _, by simp; rfl, h⟩
  cases n with
  | tok t => exact h.elim
  | node k ps =>
    cases k <;> simp only [Conforms] at h
    obtain ⟨h1, _, h2, _⟩ := h
    cases ps with
    | nil => exact absurd rfl (h2 rfl)
    | cons q ps =>
      unfold ConformsPairs at h1
      split at h1
      · rename_i e; cases e
      · rename_i cs ns e
        cases e
        rcases cs with _ | ⟨x, cs⟩ <;> simp only [ConformsAll, false_and] at h1
        obtain ⟨t, ts, e, ht⟩ := param h1.1.1
        exact ⟨t, _, by simp [e]; rfl, ht⟩
      · rename_i cs ns e
        cases e
        rcases cs with _ | ⟨x, cs⟩ <;> simp only [ConformsAll, false_and] at h1
        obtain ⟨t, ts, e, ht⟩ := param h1.1.1
        exact ⟨t, _, by simp [e]; rfl, ht⟩
      · exact h1.elim

/-- A keyword may touch a token that does not start with a word character. -/
theorem touch_keyword (hc : c.Reachable) {y : Symbol} {ty : TokenType} (he : Enabled c y) (hw : IsWord y.text) (h : Alone c ty)
    (hd : startsWith isWordChar ty.display = false) : MayTouch c (.symbol y) ty := by
  obtain ⟨ty', stop, l', h3, h4, h5⟩ := word_token hc (l := ⟨⟨y.text ++ ty.display, ⟨0, 0, 0⟩⟩, false, []⟩) rfl hw hd
  rcases h5 with ⟨_, z, rfl, hz⟩ | ⟨h5, _⟩
  · rw [Symbol.text_inj hz] at h3
    refine touch_scans hc (symbol_alone hc he) h ⟨_, _, _, _, _, h3, rfl, h4⟩ fun e => ?_
    have e : y.text = ['['] := e
    rw [e] at hw
    exact absurd hw.1 (by decide)
  · exact absurd (reserved_of_word hw ((enabled_iff c y).1 he)) h5

/-- Arguments do not start with a word character. -/
theorem args_start {n : Node} (h : Conforms c (.cat .args) n) : ∃ o ts, n.flat = o :: ts ∧ startsWith isWordChar o.token.type.display = false := by
  cases n with
  | tok t => exact h.elim
  | node k cs =>
    obtain ⟨hk, _, h, _⟩ := h
    cases k <;> simp [Kind.cat] at hk
    · obtain ⟨t, ts, e1, e2⟩ := flat_ne_nil_wrap (k := .argsParens) rfl h
      exact ⟨t, ts, e1, by rw [e2]; rfl⟩
    · rcases cs with _ | ⟨x, _ | ⟨y, cs⟩⟩ <;> simp only [production, ConformsAll, and_false, and_true] at h
      cases x with
      | node k cs => exact h.elim
      | tok x =>
        refine ⟨x, [], by simp, ?_⟩
        have h : x.token.type.kind = .stringLiteral := h
        cases hx : x.token.type <;> rw [hx] at h <;> simp [TokenType.kind] at h
        rename_i l d q
        cases q <;> simp [TokenType.display, startsWith, Quote.char] <;> decide
    · rcases cs with _ | ⟨x, _ | ⟨y, cs⟩⟩ <;> simp only [production, ConformsAll, and_false, and_true] at h
      cases x with
      | tok t => exact h.elim
      | node k cs =>
        obtain ⟨hk, _, h, _⟩ := h
        cases k <;> simp [Kind.cat] at hk
        obtain ⟨t, ts, e1, e2⟩ := flat_ne_nil_wrap (k := .tableCtor) rfl h
        refine ⟨t, ts, ?_, by rw [e2]; rfl⟩
        simpa using e1

end FM
