import Verif.Spec.Before
import Verif.Proofs.Parser.ForwardBlock
import Verif.Proofs.Append

/-! Helper lemmas: statements are read in the same way whatever is behind them. -/

namespace FM.Proofs.Before
open FM.Spec FM.Parser FM.Parser.Clean FM.Parser.Forward

variable {c : Cfg} {α β γ : Type} {self : Rec} {l : List TokRef}

/-- On the tokens `l`, `p` does what `q` does on the tokens `l'` (unless a loop reaches its bound). -/
def leads (p : M α) (l : List TokRef) (q : M α) (l' : List TokRef) : Prop :=
  p (l.map .ok) = .diverge ∨ p (l.map .ok) = q (l'.map .ok)

theorem leads_bind {p : M β} {f : β → M α} {q : M α} {l l1 l2 : List TokRef} {a : β} (h : runs p l a l1) (h' : leads (f a) l1 q l2) :
    leads (p >>= f) l q l2 := by
  rcases h with h | h
  · left
    have hb : (p >>= f) (l.map .ok) = M.bind p f (l.map .ok) := rfl
    rw [hb, M.bind, h]
  · unfold leads
    rw [bind_eq h]
    exact h'

theorem semicolon_runs {o : Option TokRef} (ho : ∀ u, o = some u → Sym u .semicolon) {t : TokRef} (ht : o = none → is .semicolon t = false) :
    runs (consumeIf .semicolon) (yield o ++ t :: l) o (t :: l) := by
  cases o with
  | none => exact .inr (by rw [yield_none, List.nil_append, consumeIf_eq, if_neg (by simp [ht rfl])])
  | some u => exact .inr (by rw [yield_some, yield_tok, List.cons_append, List.nil_append, consumeIf_eq, if_pos (is_iff.2 (ho u rfl))])

/-- What may be behind the statements. -/
def Behind (c : Cfg) (ss : List (Node × Option TokRef)) (t : TokRef) : Prop :=
  ∀ m, ss.getLast? = some (m, none) → Next t ∧ is .leftParen t = false ∧ (c.luau = true → is .twoColons t = false)

theorem blockLoop_leads (hc : c.feat.Closed) (hs : RecF c self) {t : TokRef} : ∀ {ss : List (Node × Option TokRef)}, Behind c ss t →
    (∀ s ∈ ss, SemiF c .stmt s) → distincts (ss.map stmtNode) → (c.luau = true → unasserteds (ss.map stmtNode)) → ∀ n acc,
    ∃ m, leads (blockLoop self c n acc) (yield ss ++ t :: l) (blockLoop self c m (acc ++ ss)) (t :: l)
  | _, _, _, _, _, 0, _ => ⟨0, .inl rfl⟩
  | [], _, _, _, _, n + 1, acc => ⟨n + 1, by rw [yield_nil, List.nil_append, List.append_nil]; exact .inr rfl⟩
  | (m, q) :: ss, ht, h, hd, hda, n + 1, acc => by
    obtain ⟨k, ih⟩ := blockLoop_leads hc hs (ss := ss) (t := t) (fun x hx => ht x (by
        cases ss with
        | nil => cases hx
        | cons s ss => rwa [List.getLast?_cons_cons])) (fun s hs => h s (.tail _ hs)) (by
      cases ss with
      | nil => trivial
      | cons s ss => exact hd.2) (fun hl => by
      cases ss with
      | nil => trivial
      | cons s ss => exact (hda hl).2) n (acc ++ [(m, q)])
    refine ⟨k, ?_⟩
    obtain ⟨h1, h2⟩ := h _ (.head _)
    dsimp only at h1 h2
    have hnext : ∃ w k, yield ss ++ t :: l = w :: k ∧ (q = none → Next w ∧ (endsCallable m = true → is .leftParen w = false) ∧
        (c.luau = true → endsAsserts m = true → is .twoColons w = false)) := by
      cases ss with
      | nil =>
        refine ⟨t, l, rfl, fun hq => ?_⟩
        subst hq
        obtain ⟨g1, g2, g3⟩ := ht m rfl
        exact ⟨g1, fun _ => g2, fun hl _ => g3 hl⟩
      | cons s ss =>
        obtain ⟨m', q'⟩ := s
        obtain ⟨w, k, g1, g2⟩ := stmt_first (view_stmt (h (m', q') (.tail _ (.head _))).1)
        have h5 : (stmtNode (m', q')).flat = w :: (k ++ yield q') := by rw [flat_stmtNode, yield_prod, yield_node, g1]; rfl
        refine ⟨w, k ++ (yield q' ++ (yield ss ++ t :: l)), by simp [g1], fun hq => ⟨g2, fun hm => ?_, fun hl hm => ?_⟩⟩
        · subst hq
          have h3 : distinct (stmtNode (m, none)) (stmtNode (m', q')) := hd.1
          have h4 := h3 rfl hm
          rw [startsParen, h5] at h4
          simp only [List.head?_cons, Option.any_some] at h4
          rw [is_false_iff]
          simpa using h4
        · subst hq
          have h3 : unasserted (stmtNode (m, none)) (stmtNode (m', q')) := (hda hl).1
          have h4 := h3 rfl hm
          rw [startsTok, h5] at h4
          simp only [List.head?_cons, Option.any_some] at h4
          rw [is_false_iff]
          simpa [tokenIs] using h4
    obtain ⟨w, k, hw, hw1⟩ := hnext
    rw [List.append_assoc, List.singleton_append] at ih
    generalize blockLoop self c _ (acc ++ (m, q) :: ss) = Q at ih ⊢
    unfold blockLoop
    rw [yield_cons, yield_prod, yield_node, List.append_assoc, List.append_assoc]
    have key : runs (parseStmt self c) (m.flat ++ (yield q ++ (yield ss ++ t :: l))) (.value (.stmt m)) (yield q ++ (yield ss ++ t :: l)) := by
      cases q with
      | none =>
        obtain ⟨g1, g2, g3⟩ := hw1 rfl
        rw [yield_none, List.nil_append, hw]
        exact stmt_runs hc hs (view_stmt h1) ⟨.inl g1, g2, g3⟩
      | some u =>
        have hu := h2 u rfl
        exact stmt_runs hc hs (view_stmt h1) ⟨.inr hu, fun _ => by simp [is_sym hu], fun _ _ => by simp [is_sym hu]⟩
    refine leads_bind key ?_
    dsimp only
    rw [hw] at ih ⊢
    refine leads_bind (semicolon_runs h2 fun hq => next_is (hw1 hq).1 (by decide)) ?_
    exact ih

/-! ## Statements that were read are kept -/

theorem bind_ok {p : M β} {f : β → M α} {ts : Toks} {r : FM.Parser.Run α} (h : (p >>= f) ts = .ok r) :
    ∃ r1 r2, p ts = .ok r1 ∧ f r1.val r1.toks = .ok r2 ∧ r.val = r2.val := by
  change M.bind p f ts = .ok r at h
  unfold M.bind at h
  split at h
  · rename_i r1 h1
    unfold Run.andThen at h
    split at h
    · rename_i r2 h2
      cases h
      exact ⟨r1, r2, h1, h2, rfl⟩
    · cases h
    · cases h
  · cases h
  · cases h

theorem blockEnd_keeps {acc : List (Node × Option TokRef)} {ts : Toks} {r : FM.Parser.Run (Res Blk)} (h : blockEnd self acc ts = .ok r) :
    acc <+: (firstBlock r.val).stmts := by
  unfold blockEnd at h
  obtain ⟨r1, r2, -, h, hv⟩ := bind_ok h
  rw [hv]
  generalize r1.val = v at h
  cases v <;> cases h <;> exact List.prefix_refl _

theorem blockLoop_keeps : ∀ {n : Nat} {acc : List (Node × Option TokRef)} {ts : Toks} {r : FM.Parser.Run (Res Blk)}, blockLoop self c n acc ts = .ok r →
    acc <+: (firstBlock r.val).stmts
  | 0, _, _, _, h => by cases h
  | n + 1, acc, ts, r, h => by
    unfold blockLoop at h
    obtain ⟨r1, r2, -, h, hv⟩ := bind_ok h
    rw [hv]
    generalize r1.val = v at h
    match v with
    | .value (.stmt x) =>
      obtain ⟨r3, r4, -, h, hv⟩ := bind_ok h
      rw [hv]
      exact (List.prefix_append ..).trans (blockLoop_keeps h)
    | .value (.last x) =>
      obtain ⟨r3, r4, -, h, hv⟩ := bind_ok h
      rw [hv]
      cases h
      exact List.prefix_refl _
    | .notFound => exact blockEnd_keeps h
    | .moved =>
      dsimp only at h
      by_cases he : acc.isEmpty = true
      · rw [List.isEmpty_iff.1 he]
        exact List.nil_prefix
      · rw [if_neg he] at h
        exact blockEnd_keeps h

/-- What a step leads to. -/
def stepState : Step → St
  | .stop s => s
  | .next s => s

theorem skipToken_keeps {s : St} {st : Step} (h : skipToken s = .ok st) : (stepState st).val = s.val := by
  unfold skipToken at h
  repeat' split at h
  all_goals cases h <;> rfl

theorem mainStep_keeps {hasLast : Bool} {s : St} {st : Step} (h : mainStep c hasLast s = .ok st) : s.val.stmts <+: (stepState st).val.stmts := by
  have more : moreStatements c hasLast s = .ok st → s.val.stmts <+: (stepState st).val.stmts := by
    intro h
    unfold moreStatements at h
    split at h
    · split at h
      · split at h
        · rw [skipToken_keeps h]
          exact List.prefix_refl _
        · split at h
          · cases h
            exact List.prefix_append ..
          · cases h
          · cases h
      · cases h
        exact List.prefix_refl _
    · cases h
    · cases h
  unfold mainStep at h
  split at h
  · split at h
    · cases h; exact List.prefix_refl _
    · exact more h
  · exact more h
  · cases h; exact List.prefix_refl _
  · cases h; exact List.prefix_refl _

theorem mainLoop_keeps {hasLast : Bool} : ∀ {n : Nat} {s s' : St}, mainLoop c hasLast n s = .ok s' → s.val.stmts <+: s'.val.stmts
  | 0, _, _, h => by cases h
  | n + 1, s, s', h => by
    unfold mainLoop at h
    split at h
    · rename_i st hst
      cases h
      exact mainStep_keeps hst
    · rename_i st hst
      exact (mainStep_keeps hst).trans (mainLoop_keeps h)
    · cases h
    · cases h

/-- Statements of the grammar at the start of the tokens are the first statements of the tree. -/
theorem parseTokens_keeps (hc : c.feat.Closed) {ss : List (Node × Option TokRef)} (h : BlkF c ⟨ss, none⟩) {t : TokRef} (ht : Behind c ss t)
    {r : AstResult} (hr : parseTokens c ((yield ss ++ t :: l).map .ok) = .ok r) :
    ∃ more last, r.ast.nodes = .node .block [.node .vec (ss.map stmtNode ++ more), last] := by
  unfold parseTokens at hr
  split at hr
  · rename_i r1 h1
    have h2 : ss <+: (firstBlock r1.val).stmts := by
      change parseBlock _ c _ = _ at h1
      unfold parseBlock at h1
      obtain ⟨r2, r3, hf, h1, hv⟩ := bind_ok h1
      cases hf
      rw [hv]
      obtain ⟨m, h3⟩ := blockLoop_leads (l := l) hc (parsers_runs hc _) ht h.stmts h.distincts h.asserts _ []
      rcases h3 with h3 | h3
      · rw [h3] at h1; cases h1
      · rw [h3, List.nil_append] at h1
        exact blockLoop_keeps h1
    split at hr
    · rename_i s hs
      have h3 := h2.trans (mainLoop_keeps hs)
      obtain ⟨more, h3⟩ := h3
      have h4 : r.ast.nodes = s.val.node := by
        unfold finish at hr
        repeat' split at hr
        all_goals cases hr <;> rfl
      refine ⟨more.map stmtNode, optNode (s.val.last.map stmtNode), ?_⟩
      rw [h4, Blk.node, ← h3, List.map_append]
      rfl
    · cases hr
    · cases hr
  · cases hr
  · cases hr

/-! ## A last statement that was read is kept -/

/-- An error about statements behind the last one is among the errors. -/
def Late (errs : List Err) : Prop := ∃ t, Err.ast t "unexpected statement after last statement" none ∈ errs

theorem Late.left {a b : List Err} (h : Late a) : Late (a ++ b) := h.imp fun _ h => List.mem_append_left _ h

/-- What the loop does to its state if there is a last statement. -/
structure Grows (s s' : St) : Prop where
  last : s.val.last.isSome = true → s'.val.last = s.val.last
  late : Late s.errs → Late s'.errs
  stmts : s'.val.stmts = s.val.stmts ∨ Late s'.errs

theorem Grows.trans {s s' s'' : St} (h : Grows s s') (h' : Grows s' s'') : Grows s s'' :=
  ⟨fun hl => by rw [h'.last (by rw [h.last hl]; exact hl), h.last hl], fun hl => h'.late (h.late hl), by
    rcases h'.stmts with e | e
    · rcases h.stmts with e' | e'
      · exact .inl (e.trans e')
      · exact .inr (h'.late e')
    · exact .inr e⟩

theorem grows_same {s : St} {ts : Toks} {es : List Err} {n : Nat} : Grows s ⟨s.val, ts, s.errs ++ es, n⟩ := ⟨fun _ => rfl, Late.left, .inl rfl⟩

theorem skipToken_grows {s : St} {st : Step} (h : skipToken s = .ok st) : Grows s (stepState st) := by
  unfold skipToken at h
  repeat' split at h
  all_goals cases h <;> first
    | exact ⟨fun _ => rfl, id, .inl rfl⟩
    | exact grows_same
    | exact ⟨fun _ => rfl, fun h => h.left.left, .inl rfl⟩

theorem mainStep_grows {s : St} {st : Step} (h : mainStep c true s = .ok st) : Grows s (stepState st) := by
  have more : moreStatements c true s = .ok st → Grows s (stepState st) := by
    intro h
    unfold moreStatements at h
    split at h
    · split at h
      · split at h
        · exact (grows_same).trans (skipToken_grows h)
        · split at h
          · rename_i es hes
            cases h
            unfold lateStatement at hes
            rw [if_pos rfl] at hes
            split at hes
            · cases hes
              refine ⟨fun hl => ?_, fun h => h.left.left, .inr ⟨_, List.mem_append_right _ (.head _)⟩⟩
              show Option.or _ _ = _
              cases hq : s.val.last with
              | none => rw [hq] at hl; cases hl
              | some x => rfl
            · cases hes
          · cases h
          · cases h
      · cases h
        exact grows_same
    · cases h
    · cases h
  unfold mainStep at h
  split at h
  · split at h
    · cases h; exact ⟨fun _ => rfl, id, .inl rfl⟩
    · exact more h
  · exact more h
  · cases h; exact grows_same
  · cases h; exact ⟨fun _ => rfl, id, .inl rfl⟩

theorem mainLoop_grows : ∀ {n : Nat} {s s' : St}, mainLoop c true n s = .ok s' → Grows s s'
  | 0, _, _, h => by cases h
  | n + 1, s, s', h => by
    unfold mainLoop at h
    split at h
    · rename_i st hst
      cases h
      exact mainStep_grows hst
    · rename_i st hst
      exact (mainStep_grows hst).trans (mainLoop_grows h)
    · cases h
    · cases h

/-- A block of the grammar with a last statement at the start of the tokens: its statements are the first ones of the tree, and its last
statement is the one of the tree. -/
theorem parseTokens_ends (hc : c.feat.Closed) {ss : List (Node × Option TokRef)} {x : Node × Option TokRef} (h : BlkF c ⟨ss, some x⟩) {t : TokRef} (ht : LastNext x t)
    {r : AstResult} (hr : parseTokens c ((yield (⟨ss, some x⟩ : Blk) ++ t :: l).map .ok) = .ok r) :
    ∃ more, r.ast.nodes = .node .block [.node .vec (ss.map stmtNode ++ more), .node .present [stmtNode x]] ∧ (more = [] ∨ Late r.errors) := by
  have h0 := topBlock_runs (l := l) hc h (.inr ⟨x, rfl, ht⟩)
  unfold parseTokens at hr
  rcases h0 with h1 | h1
  · rw [h1] at hr; cases hr
  · rw [h1] at hr
    dsimp only [firstBlock] at hr
    split at hr
    · rename_i s hs
      obtain ⟨more, h3⟩ := mainLoop_keeps hs
      have h5 := mainLoop_grows hs
      have h4 : r.ast.nodes = s.val.node ∧ ∃ es, r.errors = s.errs ++ es := by
        unfold finish at hr
        repeat' split at hr
        all_goals cases hr <;> first | exact ⟨rfl, _, rfl⟩ | exact ⟨rfl, [], (List.append_nil _).symm⟩
      obtain ⟨h4, es, h6⟩ := h4
      refine ⟨more.map stmtNode, ?_, ?_⟩
      · rw [h4, Blk.node, ← h3, h5.last rfl, List.map_append]
        rfl
      · rcases h5.stmts with e | e
        · left
          rw [← h3] at e
          dsimp only at e
          have : more = [] := by simpa using e
          rw [this]; rfl
        · right
          rw [h6]
          exact e.left
    · cases hr
    · cases hr

/-! ## The tokens of a text with another text behind it -/

theorem lexeme_only (hc : c.Good) {bs b1 b2 : List BraceType} {ty ty' : TokenType} {rest rest' : Text} (h : Lexeme c bs ty rest b1) (h' : Lexeme c bs ty' rest' b2)
    (e : ty.display ++ rest = ty'.display ++ rest') : ty' = ty ∧ rest' = rest ∧ b2 = b1 := by
  let l : Lx := ⟨⟨ty.display ++ rest, ⟨0, 1, 1⟩⟩, false, bs⟩
  have hne : l.src.rest ≠ [] := by simp [l, lexeme_ne h]
  have h1 := (step_iff hc (l := l) hne).2 ⟨rfl, h⟩
  have h2 := (step_iff hc (l := l) hne).2 ⟨e, h'⟩
  rw [h1] at h2
  cases h2
  exact ⟨rfl, rfl, rfl⟩

/-- The tokens of a text that ends with a line break are the first ones if another text follows. -/
theorem lexes_front (hc : c.Good) {bs : List BraceType} {s : Text} {tys : List TokenType} (h : Lexes c bs s tys) : (s = [] ∨ s.getLast? = some '\n') →
    ∀ {more : Text} {tys' : List TokenType}, Lexes c bs (s ++ more) tys' → ∃ ta tb, tys = ta ++ [.eof] ∧ tys' = ta ++ tb ∧ ∃ b, Lexes c b more tb := by
  induction h with
  | eof => exact fun _ {_ tys'} h => ⟨[], tys', rfl, rfl, _, h⟩
  | @token bs b1 ty rest tys h1 h2 ih =>
    intro he more tys' h'
    have he : (ty.display ++ rest).getLast? = some '\n' := he.resolve_left (by simp [lexeme_ne h1])
    have h3 := lexeme_more hc h1 he more
    rw [List.append_assoc] at h'
    generalize hs : ty.display ++ (rest ++ more) = s' at h'
    cases h' with
    | eof => simp [lexeme_ne h1] at hs
    | token g1 g2 =>
      obtain ⟨rfl, rfl, rfl⟩ := lexeme_only hc h3 g1 hs
      obtain ⟨ta, tb, rfl, rfl, hb⟩ := ih (by
        by_cases hr : rest = []
        · exact .inl hr
        · exact .inr (ends_append hr he)) g2
      exact ⟨_ :: ta, tb, rfl, rfl, hb⟩

theorem lexes_last {bs : List BraceType} {s : Text} {tys : List TokenType} (h : Lexes c bs s tys) : ∃ ta, tys = ta ++ [.eof] := by
  induction h with
  | eof => exact ⟨[], rfl⟩
  | @token _ _ ty _ _ _ _ ih =>
    obtain ⟨ta, rfl⟩ := ih
    exact ⟨ty :: ta, rfl⟩

theorem trivia_first {e : Token} (he : e.type = .eof) : ∀ ts : List Token, ∃ leading token rest, ts ++ [e] = leading ++ token :: rest ∧
    (∀ x ∈ leading, x.type.isTrivia = true) ∧ token.type.isTrivia = false ∧ (rest = [] ∨ ∃ r, rest = r ++ [e] ∧ r.length < ts.length)
  | [] => ⟨[], e, [], rfl, nofun, by rw [he]; rfl, .inl rfl⟩
  | t :: ts => by
    by_cases h : t.type.isTrivia = true
    · obtain ⟨l, u, r, h1, h2, h3, h4⟩ := trivia_first he ts
      refine ⟨t :: l, u, r, by rw [List.cons_append, h1, List.cons_append], fun x hx => ?_, h3, ?_⟩
      · rcases List.mem_cons.1 hx with rfl | hx
        · exact h
        · exact h2 x hx
      · rcases h4 with h4 | ⟨r', h4, h5⟩
        · exact .inl h4
        · exact .inr ⟨r', h4, Nat.lt_succ_of_lt h5⟩
    · exact ⟨[], t, ts ++ [e], rfl, nofun, by simpa using h, .inr ⟨ts, rfl, by simp⟩⟩

/-- Tokens that end with the end of the file can be attached. -/
theorem attaches_some {e : Token} (he : e.type = .eof) (n : Nat) : ∀ ts : List Token, ts.length ≤ n → ∃ u us, Attaches (ts ++ [e]) (u :: us) := by
  induction n using Nat.strongRecOn with
  | ind n ih =>
    intro ts hn
    obtain ⟨l, t, r, h1, h2, h3, h4⟩ := trivia_first he ts
    rw [h1]
    rcases h4 with rfl | ⟨r', rfl, h5⟩
    · exact ⟨_, _, .cons h2 h3 .nil⟩
    · obtain ⟨tr, l', h6, h7⟩ := restOfLine_last (by rw [he]; exact id) r'
      obtain ⟨u, us, h8⟩ := ih l'.length (by
        have := congrArg List.length h7
        simp only [List.length_append] at this
        omega) l' (Nat.le_refl _)
      have := Attaches.cons (rest := r' ++ [e]) h2 h3 (refs := u :: us) (by rw [h6]; exact h8)
      exact ⟨_, _, this⟩

end FM.Proofs.Before
