import Verif.Proofs.Building
import Verif.Proofs.Eval

/-!
# Properties of constructors: C49

A node made by a constructor from readable parts, completed with `with_*` methods, is readable: it conforms to the grammar
and prints with white space where it is needed.  Readable trees are parsed to themselves (`readable_parses`).
-/

namespace FM.Props
open FM Spec Parser

variable {c : Cfg}

/-- The tokens of a node, part by part. -/
macro "parts" : tactic => `(tactic| simp only [flat_doBlock_plain, flat_repeatBlock_plain, flat_elseIf_plain, flat_whileBlock_plain,
  flat_ifBlock_plain, flat_ret_plain, flat_assignment_plain, flat_anonFunc_plain, flat_localFunction_plain, flat_functionDecl_plain,
  flat_typeField_plain, flat_typeAssertion_plain, flat_typeDecl_plain, flat_typeSpec_plain, flat_typeFunction_plain, flat_exportedTypeDecl_plain,
  flat_exportedTypeFunction_plain, flat_genericDeclParam_plain, flat_typeArg_plain, flat_ifExpr_plain, flat_elseIfExpr_plain, flat_luauAttr_plain,
  flat_functionCall_plain, flat_functionName_plain, flat_methodCall_plain, flat_label_plain, flat_gotoStmt_plain, flat_varExpr_plain,
  flat_suffixCall_plain, flat_callAnonymous_plain, flat_vec_plain, Build.absent, Build.noVec, Node.flat_tok, flat_absent_plain, List.flatMap_cons,
  List.flatMap_nil, List.nil_append, List.cons_append, List.append_nil])

theorem nones_chosen {exist : Bool} {n : Nat} : (nones exist n).Every Chosen := by
  rw [nones, Node.every_node]
  refine ⟨trivial, fun m hm => ?_⟩
  rw [(List.mem_replicate.1 hm).2]
  simp [Chosen]

theorem none_of_nones {exist : Bool} {n : Nat} {m : Node} (h : m ∈ (nones exist n).children) : specType m = none := by
  rw [(List.mem_replicate.1 h).2]
  rfl

theorem absent_of_nones {exist : Bool} {n : Nat} {m : Node} (h : m ∈ (nones exist n).children) : m = .node .absent [] :=
  (List.mem_replicate.1 h).2

/-- Apart from types, there is only one node that is printed like this. -/
macro "meant" : tactic => `(tactic| (
  intro hl
  repeat' first
    | exact trivial
    | assumption
    | exact Readable.chosen (by assumption) hl
    | exact (block_readable (c := c)).chosen hl
    | exact nones_chosen
    | (intro m hm t ht; rw [none_of_nones hm] at ht; cases ht; done)
    | (intro p hp; rw [absent_of_nones (List.of_mem_zip hp).1]; exact .inl rfl)
    | (intro t ht; cases ht; done)
    | refine ⟨?_, ?_⟩))

/-- **C49.**  A readable tree is read back. -/
theorem readable_parses (hc : c.Reachable) {n : Node} (h : Readable c .block n) :
    ∃ ast : Ast, parse c n.display = .ok (.ok ast) ∧ ast.nodes.mapTok bare = n.mapTok bare := by
  obtain ⟨f, s, hf, hl, e, _⟩ := tidy_laid h.2
  rw [Node.display, e]
  exact printed_tree_parses hc h.1 h.3 hf hl

/-- **C49, numeric `for`.** -/
theorem numericFor_new (hc : c.Reachable) {i : TokRef} {s e b : Node} (hi : ReadableName c i)
    (hs : Readable c .expr s) (he : Readable c .expr e) (hb : Readable c .block b) :
    ∃ n, Build.numericFor c.feat i s e = .ok n ∧ Readable c (.cat .numericFor) n ∧
      Readable c (.cat .numericFor) (Build.call n c!"with_block" b) := by
  obtain ⟨t1, e1, m1, h1⟩ := core hc c.feat c!"for " [] .kFor c!" " (by decide)
  obtain ⟨t2, e2, m2, h2⟩ := core hc c.feat c!" = " c!" " .equal c!" " (by decide)
  obtain ⟨t3, e3, m3, h3⟩ := core hc c.feat c!", " [] .comma c!" " (by decide)
  obtain ⟨t4, e4, m4, h4⟩ := core hc c.feat c!" do\n" c!" " .kDo c!"\n" (by decide)
  obtain ⟨t5, e5, m5, h5⟩ := core hc c.feat c!"\nend" c!"\n" .kEnd [] (by decide)
  have key : ∀ b, Readable c .block b → Readable c (.cat .numericFor) (.node .numericFor [.tok t1, .tok i, .tok t2, s, .tok t3, e, Build.absent, Build.absent, .tok t4, b, .tok t5, Build.absent]) := by
    intro b hb
    refine ⟨⟨rfl, rfl, ⟨m1.is, hi.1, m2.is, hs.1, m3.is, he.1, rfl, rfl, m4.is, hb.1, m5.is, rfl, trivial⟩, rfl⟩, ?_, by meant⟩
    rw [flat_numericFor]
    parts
    exact tidy_cons_gap h1 m1.behind <| tidy_append_gap (xs := [i]) (tidy_one hi.2) (tidy_cons_gap h2 m2.behind <|
      tidy_append_soft hc hs.2 (tidy_cons_gap h3 m3.behind <| tidy_append_gap he.2 (tidy_cons_gap h4 m4.behind <|
      tidy_append_gap hb.2 (tidy_one h5) m5.before) m4.before) (.inl m3.leading) m3.soft) m2.before
  refine ⟨_, by simp only [Build.numericFor, e1, e2, e3, e4, e5, Outcome.bind], key _ block_readable, key b hb⟩

/-- **C49, `do`.** -/
theorem doBlock_new (hc : c.Reachable) {b : Node} (hb : Readable c .block b) :
    ∃ n, Build.doBlock c.feat = .ok n ∧ Readable c (.cat .doBlock) n ∧
      Readable c (.cat .doBlock) (Build.call n c!"with_block" b) := by
  obtain ⟨t1, e1, m1, h1⟩ := core hc c.feat c!"do\n" [] .kDo c!"\n" (by decide)
  obtain ⟨t2, e2, m2, h2⟩ := core hc c.feat c!"\nend" c!"\n" .kEnd [] (by decide)
  have key : ∀ b, Readable c .block b → Readable c (.cat .doBlock) (.node .doBlock [.tok t1, b, .tok t2]) := by
    intro b hb
    refine ⟨⟨rfl, rfl, ⟨m1.is, hb.1, m2.is, trivial⟩, trivial⟩, ?_, by meant⟩
    parts
    exact tidy_cons_gap h1 m1.behind <| tidy_append_gap hb.2 (tidy_one h2) m2.before
  refine ⟨_, by simp only [Build.doBlock, e1, e2, Outcome.bind], key _ block_readable, key b hb⟩

/-- **C49, `repeat`.** -/
theorem repeatBlock_new (hc : c.Reachable) {e b : Node} (he : Readable c .expr e) (hb : Readable c .block b) :
    ∃ n, Build.repeatBlock c.feat e = .ok n ∧ Readable c (.cat .repeatBlock) n ∧
      Readable c (.cat .repeatBlock) (Build.call n c!"with_block" b) := by
  obtain ⟨t1, e1, m1, h1⟩ := core hc c.feat c!"repeat\n" [] .kRepeat c!"\n" (by decide)
  obtain ⟨t2, e2, m2, h2⟩ := core hc c.feat c!"\nuntil " c!"\n" .kUntil c!" " (by decide)
  have key : ∀ b, Readable c .block b → Readable c (.cat .repeatBlock) (.node .repeatBlock [.tok t1, b, .tok t2, e]) := by
    intro b hb
    refine ⟨⟨rfl, rfl, ⟨m1.is, hb.1, m2.is, he.1, trivial⟩, trivial⟩, ?_, by meant⟩
    parts
    exact tidy_cons_gap h1 m1.behind <| tidy_append_gap hb.2 (tidy_cons_gap h2 m2.behind he.2) m2.before
  refine ⟨_, by simp only [Build.repeatBlock, e1, e2, Outcome.bind], key _ block_readable, key b hb⟩

/-- **C49, `elseif`.** -/
theorem elseIf_new (hc : c.Reachable) {e b : Node} (he : Readable c .expr e) (hb : Readable c .block b) :
    ∃ n, Build.elseIf c.feat e = .ok n ∧ Readable c (.cat .elseIf) n ∧
      Readable c (.cat .elseIf) (Build.call n c!"with_block" b) := by
  obtain ⟨t1, e1, m1, h1⟩ := core hc c.feat c!"elseif " [] .kElseIf c!" " (by decide)
  obtain ⟨t2, e2, m2, h2⟩ := core hc c.feat c!" then\n" c!" " .kThen c!"\n" (by decide)
  have key : ∀ b, Readable c .block b → Readable c (.cat .elseIf) (.node .elseIf [.tok t1, e, .tok t2, b]) := by
    intro b hb
    refine ⟨⟨rfl, rfl, ⟨m1.is, he.1, m2.is, hb.1, trivial⟩, trivial⟩, ?_, by meant⟩
    parts
    exact tidy_cons_gap h1 m1.behind <| tidy_append_gap he.2 (tidy_cons_gap h2 m2.behind hb.2) m2.before
  refine ⟨_, by simp only [Build.elseIf, e1, e2, Outcome.bind], key _ block_readable, key b hb⟩

/-- **C49, `while`**, for blocks with white space behind them. -/
theorem whileBlock_new_partial (hc : c.Reachable) {e b : Node} (he : Readable c .expr e) (hb : Readable c .block b)
    (hl : ∀ t, b.flat.getLast? = some t → Gap c (text t.trailing)) :
    ∃ n, Build.whileBlock c.feat e = .ok n ∧ Readable c (.cat .whileBlock) n ∧
      Readable c (.cat .whileBlock) (Build.call n c!"with_block" b) := by
  obtain ⟨t1, e1, m1, h1⟩ := core hc c.feat c!"while " [] .kWhile c!" " (by decide)
  obtain ⟨t2, e2, m2, h2⟩ := core hc c.feat c!" do\n" c!" " .kDo c!"\n" (by decide)
  obtain ⟨t3, e3, m3, h3⟩ := core hc c.feat c!"end\n" [] .kEnd c!"\n" (by decide)
  have key : ∀ b, Readable c .block b → (∀ t, b.flat.getLast? = some t → Gap c (text t.trailing)) → Readable c (.cat .whileBlock) (.node .whileBlock [.tok t1, e, .tok t2, b, .tok t3]) := by
    intro b hb hl
    refine ⟨⟨rfl, rfl, ⟨m1.is, he.1, m2.is, hb.1, m3.is, trivial⟩, trivial⟩, ?_, by meant⟩
    parts
    exact tidy_cons_gap h1 m1.behind <| tidy_append_gap he.2 (tidy_cons_gap h2 m2.behind <| tidy_append_last_gap hb.2 (tidy_one h3) hl) m2.before
  refine ⟨_, by simp only [Build.whileBlock, e1, e2, e3, Outcome.bind], key _ block_readable nofun, key b hb hl⟩

/-- **C49, `if`**, for blocks with white space in front of them. -/
theorem ifBlock_new_partial (hc : c.Reachable) {e b : Node} (he : Readable c .expr e) (hb : Readable c .block b)
    (hl : ∀ t, b.flat.head? = some t → Gap c (text t.leading)) :
    ∃ n, Build.ifBlock c.feat e = .ok n ∧ Readable c (.cat .ifBlock) n ∧
      Readable c (.cat .ifBlock) (Build.call n c!"with_block" b) := by
  obtain ⟨t1, e1, m1, h1⟩ := core hc c.feat c!"if " [] .kIf c!" " (by decide)
  obtain ⟨t2, e2, m2, h2⟩ := core hc c.feat c!" then" c!" " .kThen [] (by decide)
  obtain ⟨t3, e3, m3, h3⟩ := core hc c.feat c!"\nend" c!"\n" .kEnd [] (by decide)
  have key : ∀ b, Readable c .block b → (∀ t, b.flat.head? = some t → Gap c (text t.leading)) → Readable c (.cat .ifBlock) (.node .ifBlock [.tok t1, e, .tok t2, b, Build.absent, Build.absent, Build.absent, .tok t3]) := by
    intro b hb hl
    refine ⟨⟨rfl, rfl, ⟨m1.is, he.1, m2.is, hb.1, rfl, rfl, rfl, m3.is, trivial⟩, rfl⟩, ?_, by meant⟩
    parts
    refine tidy_cons_gap h1 m1.behind <| tidy_append_gap he.2 (tidy_cons h2 (tidy_append_gap hb.2 (tidy_one h3) m3.before) fun u hu => ?_) m2.before
    cases hf : b.flat with
    | nil =>
      rw [hf] at hu
      cases hu
      exact .inl (spacing_gap h2.2.2 m3.before)
    | cons v vs =>
      rw [hf] at hu
      simp only [List.cons_append, List.head?_cons, Option.some.injEq] at hu
      exact .inl (spacing_gap h2.2.2 (hl u (by rw [hf, hu]; rfl)))
  refine ⟨_, by simp only [Build.ifBlock, e1, e2, e3, Outcome.bind], key _ block_readable nofun, key b hb hl⟩

/-- **C49, `return`.** -/
theorem ret_new (hc : c.Reachable) {es : Node} (hes : Readable c (.exprs .any) es) :
    ∃ n, Build.ret c.feat = .ok n ∧ Readable c (.cat .ret) n ∧
      Readable c (.cat .ret) (Build.call n c!"with_returns" es) := by
  obtain ⟨t1, e1, m1, h1⟩ := core hc c.feat c!"return " [] .kReturn c!" " (by decide)
  have key : ∀ es, Readable c (.exprs .any) es → Readable c (.cat .ret) (.node .ret [.tok t1, es]) := by
    intro es hes
    refine ⟨⟨rfl, rfl, ⟨m1.is, hes.1, trivial⟩, trivial⟩, ?_, by meant⟩
    parts
    exact tidy_cons_gap h1 m1.behind hes.2
  refine ⟨_, by simp only [Build.ret, e1, Outcome.bind], key _ noItems_readable, key es hes⟩

/-- **C49, table.** -/
theorem tableCtor_new (hc : c.Reachable) {fs : Node} (hfs : Readable c (.list (.cat .field) [.comma, .semicolon] .trailing) fs) :
    ∃ n, Build.tableCtor c.feat = .ok n ∧ Readable c (.cat .tableCtor) n ∧
      Readable c (.cat .tableCtor) (Build.call n c!"with_fields" fs) := by
  obtain ⟨t1, e1, m1, h1⟩ := core hc c.feat c!"{ " [] .leftBrace c!" " (by decide)
  obtain ⟨t2, e2, m2, h2⟩ := core hc c.feat c!" }" c!" " .rightBrace [] (by decide)
  have key : ∀ fs, Readable c (.list (.cat .field) [.comma, .semicolon] .trailing) fs → Readable c (.cat .tableCtor) (.node .tableCtor [span t1 t2, fs]) := by
    intro fs hfs
    refine ⟨⟨rfl, rfl, ⟨⟨m1.is, m2.is, trivial⟩, hfs.1, trivial⟩, trivial⟩, ?_, by meant⟩
    rw [span, flat_tableCtor_wrap]
    exact tidy_cons_gap h1 m1.behind <| tidy_append_gap hfs.2 (tidy_one h2) m2.before
  refine ⟨_, by simp only [Build.tableCtor, e1, e2, Outcome.bind], key _ noItems_readable, key fs hfs⟩

/-- **C49, assignment.** -/
theorem assignment_new (hc : c.Reachable) {vs es : Node} (hvs : Readable c (.list (.cat .var) [.comma] .nonempty) vs)
    (hes : Readable c (.exprs .nonempty) es) :
    ∃ n, Build.assignment c.feat vs es = .ok n ∧ Readable c (.cat .assignment) n := by
  obtain ⟨t1, e1, m1, h1⟩ := core hc c.feat c!" = " c!" " .equal c!" " (by decide)
  refine ⟨.node .assignment [vs, .tok t1, es], by simp only [Build.assignment, e1, Outcome.bind], ?_⟩
  refine ⟨⟨rfl, rfl, ⟨hvs.1, m1.is, hes.1, trivial⟩, trivial⟩, ?_, by meant⟩
  parts
  exact tidy_append_gap hvs.2 (tidy_cons_gap h1 m1.behind hes.2) m1.before

/-- **C49, no arguments.** -/
theorem emptyArgs_new (hc : c.Reachable) {es : Node} (hes : Readable c (.exprs .any) es) (hn : NoComment c es.flat) :
    ∃ n, Build.emptyArgs c.feat = .ok n ∧ Readable c (.cat .args) n ∧
      Readable c (.cat .args) (.node .argsParens [n.component 0, es]) := by
  obtain ⟨t1, e1, m1, h1⟩ := core hc c.feat c!"(" [] .leftParen [] (by decide)
  obtain ⟨t2, e2, m2, h2⟩ := core hc c.feat c!")" [] .rightParen [] (by decide)
  have key : ∀ es, Readable c (.exprs .any) es → NoComment c es.flat → Readable c (.cat .args) (.node .argsParens [span t1 t2, es]) := by
    intro es hes hn
    refine ⟨⟨rfl, rfl, ⟨⟨m1.is, m2.is, trivial⟩, hes.1, trivial⟩, trivial⟩, ?_, by meant⟩
    rw [span, flat_argsParens_wrap]
    exact tidy_cons_paren hc m1 h1 (tidy_append_soft hc hes.2 (tidy_one h2) (.inl m2.leading) m2.soft)
      (noComment_append hn (noComment_cons (.inl m2.leading)))
  refine ⟨_, by simp only [Build.emptyArgs, e1, e2, Outcome.bind], key _ noItems_readable nofun, key es hes hn⟩

theorem feat_of_has {v : Ver} (h : c.has v = true) : c.feat.has v = true := Cfg.feat_of_has h

/-- **C49, function body.**  In Luau `...` may have a type too. -/
theorem funcBody_new (hc : c.Reachable) {ps b : Node} (hps : Readable c (.list (.cat .param) [.comma] .any) ps)
    (hn : NoComment c ps.flat) (hv : ∀ p ∈ ps.children.dropLast, namedParam p = true) (hb : Readable c .block b) (hnb : NoComment c b.flat) :
    ∃ n, Build.funcBody c.feat = .ok n ∧ Readable c (.cat .funcBody) n ∧ NoComment c n.flat ∧
      ∃ m, m = Build.call (Build.call (Build.call n c!"with_parameters" ps) c!"with_type_specifiers"
          (nones c.feat.luau (typedParams c ps))) c!"with_block" b ∧
        Readable c (.cat .funcBody) m ∧ NoComment c m.flat := by
  obtain ⟨t1, e1, m1, h1⟩ := core hc c.feat c!"(" [] .leftParen [] (by decide)
  obtain ⟨t2, e2, m2, h2⟩ := core hc c.feat c!")" [] .rightParen [] (by decide)
  obtain ⟨t3, e3, m3, h3⟩ := core hc c.feat c!"\nend" c!"\n" .kEnd [] (by decide)
  have key : ∀ ps b, Readable c (.list (.cat .param) [.comma] .any) ps → NoComment c ps.flat → (∀ p ∈ ps.children.dropLast, namedParam p = true) →
      Readable c .block b → NoComment c b.flat →
      ∀ m, m = Node.node .funcBody [Build.absent, span t1 t2, ps, nones c.feat.luau (typedParams c ps), Build.absent, b, .tok t3] →
        Readable c (.cat .funcBody) m ∧ NoComment c m.flat := by
    intro ps b hps hn hv hb hnb m hm
    subst hm
    cases ps with
    | tok t => exact hps.1.elim
    | node k ps =>
      have hk := hps.1
      cases k <;> simp only [Conforms] at hk
      have hf := flatNames_absent (m := 0) (n := if c.feat.luau then typedParams c (.node .punct ps) else 0) hk.1
      simp only [List.replicate_zero] at hf
      have hfl : (Node.node .funcBody [Build.absent, span t1 t2, .node .punct ps, nones c.feat.luau (typedParams c (.node .punct ps)),
          Build.absent, b, .tok t3]).flat = t1 :: ((Node.node .punct ps).flat ++ t2 :: (b.flat ++ [t3])) := by
        rw [span, nones, flat_funcBody]
        simp only [hf]
        parts
      refine ⟨⟨⟨rfl, rfl, ⟨rfl, ⟨m1.is, m2.is, trivial⟩, hps.1, ?_, rfl, hb.1, m3.is, trivial⟩, hv, ?_⟩, ?_, ?_⟩, ?_⟩
      · show ConformsEach c _ (List.replicate _ _)
        generalize (if c.feat.luau = true then _ else _ : Nat) = k
        induction k with
        | zero => trivial
        | succ k ih => exact ⟨rfl, ih⟩
      · simp only [Node.children, nones, List.length_replicate, typedParams, Cfg.luau]
        by_cases hl : c.has .luau = true
        · simp [hl, show c.feat.luau = true from feat_of_has (v := .luau) hl]
        · simp [hl]
      · rw [hfl]
        refine tidy_cons_paren hc m1 h1 (tidy_append_soft hc hps.2 (tidy_cons_paren hc m2 h2 (tidy_append_gap hb.2 (tidy_one h3) m3.before)
          (noComment_append hnb (noComment_cons (.inr m3.before)))) (.inl m2.leading) m2.soft) (noComment_append hn (noComment_cons (.inl m2.leading)))
      · intro hl
        rw [Node.every_node]
        refine ⟨⟨by simp [genericParams, Build.absent, Node.children], fun p hp t ht => ?_, by simp [specType, Build.absent]⟩, ?_⟩
        · rw [none_of_nones (List.of_mem_zip hp).2] at ht
          cases ht
        · simp only [List.forall_mem_cons, List.not_mem_nil, false_imp_iff, implies_true, and_true]
          exact ⟨by simp [Build.absent, Chosen], by simp [span, Node.spanOf, Chosen], hps.3 hl, nones_chosen, by simp [Build.absent, Chosen], hb.3 hl, trivial⟩
      · rw [hfl]
        exact noComment_cons (.inl m1.leading)
  refine ⟨.node .funcBody [Build.absent, span t1 t2, Build.noItems, Build.noVec, Build.absent, Build.block, .tok t3],
    by simp only [Build.funcBody, e1, e2, e3, Outcome.bind], ?_⟩
  have h := key Build.noItems Build.block noItems_readable nofun nofun block_readable nofun _ rfl
  have e : nones c.feat.luau (typedParams c Build.noItems) = Build.noVec := by
    simp [nones, typedParams, Build.noItems, Build.noVec, Node.children]
  rw [e] at h
  exact ⟨h.1, h.2, _, rfl, key ps b hps hn hv hb hnb _ rfl⟩

/-- A readable function body follows names and keywords. -/
theorem tidy_append_body (hc : c.Reachable) {xs : List TokRef} {t : TokRef} {m : Node} (hx : Tidy c (xs ++ [t])) (ht : Term.name.Is t ∨ t.token.type = .symbol .kFunction)
    (hm : Readable c (.cat .funcBody) m) (hn : NoComment c m.flat) : Tidy c (xs ++ [t] ++ m.flat) := by
  obtain ⟨o, ts, e, ho⟩ := body_starts hm.1
  refine tidy_append hx hm.2 fun t' u h1 h2 => ?_
  simp only [List.getLast?_append, List.getLast?_singleton, Option.some_or, Option.some.injEq] at h1
  subst h1
  have hl := tidy_last hx (t := t) (by simp)
  have hu := (tidy_head hm.2 h2).1
  have hs : startsWith isWordChar u.token.type.display = false := by
    rw [e] at h2
    cases h2
    exact ho
  rcases spacing_append hl.2.2 (hn u h2) with h | h
  · refine .inr ⟨h.1, h.2, ?_⟩
    rcases ht with ⟨x, hx⟩ | hx
    · rw [hx]
      exact touch_name hc (hx ▸ hl.1) hu hs
    · rw [hx]
      exact touch_keyword hc (.inl rfl) (by simp [IsWord, Symbol.text]; decide) hu hs
  · exact .inl h

/-- The body a constructor makes. -/
theorem newBody_readable (hc : c.Reachable) :
    ∃ n, Build.funcBody c.feat = .ok n ∧ Readable c (.cat .funcBody) n ∧ NoComment c n.flat := by
  obtain ⟨n, e, h1, h2, _⟩ := funcBody_new hc (ps := Build.noItems) (b := Build.block) noItems_readable nofun nofun block_readable nofun
  exact ⟨n, e, h1, h2⟩

/-- **C49, function expression.** -/
theorem anonFunc_new (hc : c.Reachable) {m : Node} (hm : Readable c (.cat .funcBody) m) (hn : NoComment c m.flat) :
    ∃ n, Build.anonFunc c.feat = .ok n ∧ Readable c (.cat .anonFunc) n ∧ Readable c (.cat .anonFunc) (Build.call n c!"with_body" m) := by
  obtain ⟨t1, e1, m1, h1⟩ := core hc c.feat c!"function" [] .kFunction [] (by decide)
  obtain ⟨m0, e0, hm0, hn0⟩ := newBody_readable hc
  have key : ∀ m, Readable c (.cat .funcBody) m → NoComment c m.flat → Readable c (.cat .anonFunc) (.node .anonFunc [Build.noVec, .tok t1, m]) := by
    intro m hm hn
    refine ⟨⟨rfl, rfl, ⟨trivial, m1.is, hm.1, trivial⟩, trivial⟩, ?_, by meant⟩
    parts
    exact tidy_append_body hc (xs := []) (t := t1) (tidy_one h1) (.inr m1.type) hm hn
  exact ⟨_, by simp only [Build.anonFunc, e1, e0, Outcome.bind], key m0 hm0 hn0, key m hm hn⟩

/-- **C49, local function.** -/
theorem localFunction_new (hc : c.Reachable) {name : TokRef} {m : Node} (hname : ReadableName c name) (hm : Readable c (.cat .funcBody) m)
    (hn : NoComment c m.flat) :
    ∃ n, Build.localFunction c.feat name = .ok n ∧ Readable c (.cat .localFunction) n ∧ Readable c (.cat .localFunction) (Build.call n c!"with_body" m) := by
  obtain ⟨t1, e1, m1, h1⟩ := core hc c.feat c!"local " [] .kLocal c!" " (by decide)
  obtain ⟨t2, e2, m2, h2⟩ := core hc c.feat c!"function " [] .kFunction c!" " (by decide)
  obtain ⟨m0, e0, hm0, hn0⟩ := newBody_readable hc
  have key : ∀ m, Readable c (.cat .funcBody) m → NoComment c m.flat →
      Readable c (.cat .localFunction) (.node .localFunction [Build.noVec, .tok t1, .tok t2, .tok name, m]) := by
    intro m hm hn
    refine ⟨⟨rfl, rfl, ⟨trivial, m1.is, m2.is, hname.1, hm.1, trivial⟩, trivial⟩, ?_, by meant⟩
    parts
    exact tidy_cons_gap h1 m1.behind <| tidy_cons_gap h2 m2.behind <| tidy_append_body hc (xs := []) (t := name) (tidy_one hname.2) (.inl hname.1) hm hn
  exact ⟨_, by simp only [Build.localFunction, e1, e2, e0, Outcome.bind], key m0 hm0 hn0, key m hm hn⟩

/-- **C49, function name.** -/
theorem functionName_new {ns : Node} (hns : Readable c (.list .name [.dot] .nonempty) ns) : Readable c (.cat .functionName) (Build.functionName ns) := by
  refine ⟨⟨rfl, rfl, ⟨hns.1, rfl, trivial⟩, trivial⟩, ?_, by meant⟩
  simp only [Build.functionName]
  parts
  exact hns.2

/-- **C49, function declaration.** -/
theorem functionDecl_new (hc : c.Reachable) {name m : Node} (hname : Readable c (.cat .functionName) name)
    (hm : Readable c (.cat .funcBody) m) (hn : NoComment c m.flat) :
    ∃ n, Build.functionDecl c.feat name = .ok n ∧ Readable c (.cat .functionDecl) n ∧ Readable c (.cat .functionDecl) (Build.call n c!"with_body" m) := by
  obtain ⟨t1, e1, m1, h1⟩ := core hc c.feat c!"function " [] .kFunction c!" " (by decide)
  obtain ⟨m0, e0, hm0, hn0⟩ := newBody_readable hc
  have key : ∀ m, Readable c (.cat .funcBody) m → NoComment c m.flat →
      Readable c (.cat .functionDecl) (.node .functionDecl [Build.noVec, .tok t1, name, m]) := by
    intro m hm hn
    refine ⟨⟨rfl, rfl, ⟨trivial, m1.is, hname.1, hm.1, trivial⟩, trivial⟩, ?_, by meant⟩
    parts
    obtain ⟨xs, t, e, ht⟩ := functionName_last hname.1
    rw [e]
    exact tidy_cons_gap h1 m1.behind <| tidy_append_body hc (e ▸ hname.2) (.inl ht) hm hn
  exact ⟨_, by simp only [Build.functionDecl, e1, e0, Outcome.bind], key m0 hm0 hn0, key m hm hn⟩

/-- **C49, function call.** -/
theorem functionCall_new (hc : c.Reachable) {pre : Node} (hp : Readable c (.cat .prefix) pre) :
    ∃ n, Build.functionCall c.feat pre = .ok n ∧ Readable c (.cat .functionCall) n := by
  obtain ⟨t1, e1, m1, h1⟩ := core hc c.feat c!"(" [] .leftParen [] (by decide)
  obtain ⟨t2, e2, m2, h2⟩ := core hc c.feat c!")" [] .rightParen [] (by decide)
  refine ⟨.node .functionCall [pre, .node .vec [.node .suffixCall [.node .callAnonymous [.node .argsParens [span t1 t2, Build.noItems]]]]],
    by simp only [Build.functionCall, Build.emptyArgs, e1, e2, Outcome.bind], ⟨rfl, rfl, ⟨hp.1, ⟨⟨rfl, rfl, ⟨⟨rfl, rfl, ⟨⟨rfl, rfl,
      ⟨⟨m1.is, m2.is, trivial⟩, (noItems_readable (c := c)).1, trivial⟩, trivial⟩, trivial⟩, trivial⟩, trivial⟩, trivial⟩, trivial⟩, trivial⟩, rfl⟩, ?_, by meant⟩
  have : (Node.node .argsParens [span t1 t2, Build.noItems]).flat = [t1, t2] := by rw [span, flat_argsParens_wrap]; rfl
  parts
  rw [this]
  exact tidy_append_soft hc hp.2 (tidy_cons_paren hc m1 h1 (tidy_one h2) (noComment_cons (.inl m2.leading))) (.inl m1.leading) m1.soft

/-- **C49, method call.** -/
theorem methodCall_new (hc : c.Reachable) {name : TokRef} {args : Node} (hname : ReadableName c name)
    (hns : NoComment c [name]) (ha : Readable c (.cat .args) args) (hn : NoComment c args.flat) :
    ∃ n, Build.methodCall c.feat name args = .ok n ∧ Readable c (.cat .methodCall) n := by
  obtain ⟨t1, e1, m1, h1⟩ := core hc c.feat c!":" [] .colon [] (by decide)
  refine ⟨.node .methodCall [.tok t1, .tok name, Build.absent, args], by simp only [Build.methodCall, e1, Outcome.bind],
    ⟨rfl, rfl, ⟨m1.is, hname.1, rfl, ha.1, trivial⟩, trivial⟩, ?_, by meant⟩
  parts
  have hargs : Tidy c (name :: args.flat) := by
    obtain ⟨o, ts, e, ho⟩ := args_start ha.1
    obtain ⟨x, hx⟩ := hname.1
    refine tidy_cons_touch hname.2 ha.2 hn fun u hu => ?_
    have hu' := (tidy_head ha.2 hu).1
    rw [e] at hu
    cases hu
    rw [hx]
    exact touch_name hc (hx ▸ hname.2.1) hu' ho
  refine tidy_cons_touch h1 hargs (fun t ht => hns t (by simpa using ht)) fun u hu => ?_
  cases hu
  obtain ⟨x, hx⟩ := hname.1
  have hw := alone_name hc (hx ▸ hname.2.1)
  rw [m1.type]
  refine touch_symbol hc (.inl rfl) hname.2.1 (fun h => absurd h.1 (by decide)) nofun fun ch hch => ?_
  rw [hx] at hch
  cases x with
  | nil => cases hch
  | cons y ys =>
    cases hch
    exact word_calm hw.1.1 hw.1.2.1

theorem nones_conform {p : Part} {exist : Bool} {n : Nat} : Conforms c (.many (.opt p)) (nones exist n) := by
  show ConformsEach c _ (List.replicate _ _)
  generalize (if exist = true then _ else _ : Nat) = k
  induction k with
  | zero => trivial
  | succ k ih => exact ⟨rfl, ih⟩

/-- **C49, generic `for`.**  The list of types the constructor leaves empty has an entry per name in a parsed tree if Luau is
compiled in; it is not printed either way. -/
theorem genericFor_new (hc : c.Reachable) {ns es b : Node} (hns : Readable c (.list .name [.comma] .nonempty) ns) (hes : Readable c (.exprs .nonempty) es)
    (hb : Readable c .block b) :
    ∃ n, Build.genericFor c.feat ns es = .ok n ∧ n.flat = (Build.call n c!"with_type_specifiers" (nones c.feat.luau ns.children.length)).flat ∧
      Readable c (.cat .genericFor) (Build.call n c!"with_type_specifiers" (nones c.feat.luau ns.children.length)) ∧
      Readable c (.cat .genericFor) (Build.call (Build.call n c!"with_type_specifiers" (nones c.feat.luau ns.children.length)) c!"with_block" b) := by
  obtain ⟨t1, e1, m1, h1⟩ := core hc c.feat c!"for " [] .kFor c!" " (by decide)
  obtain ⟨t2, e2, m2, h2⟩ := core hc c.feat c!" in " c!" " .kIn c!" " (by decide)
  obtain ⟨t3, e3, m3, h3⟩ := core hc c.feat c!" do\n" c!" " .kDo c!"\n" (by decide)
  obtain ⟨t4, e4, m4, h4⟩ := core hc c.feat c!"\nend" c!"\n" .kEnd [] (by decide)
  cases ns with
  | tok t => exact hns.1.elim
  | node k ns =>
    have hk := hns.1
    cases k <;> simp only [Conforms] at hk
    have hfl : ∀ b n, (Node.node .genericFor [.tok t1, .node .punct ns, .tok t2, es, .tok t3, b, .tok t4, nones c.feat.luau n]).flat =
        t1 :: ((Node.node .punct ns).flat ++ t2 :: (es.flat ++ t3 :: (b.flat ++ [t4]))) := by
      intro b n
      have hf := flatNames_absent (m := 0) (n := if c.feat.luau then n else 0) hk.1
      simp only [List.replicate_zero] at hf
      rw [nones, flat_genericFor, hf]
      parts
    have key : ∀ b, Readable c .block b → Readable c (.cat .genericFor)
        (.node .genericFor [.tok t1, .node .punct ns, .tok t2, es, .tok t3, b, .tok t4, nones c.feat.luau (Node.node .punct ns).children.length]) := by
      intro b hb
      refine ⟨⟨rfl, rfl, ⟨m1.is, hns.1, m2.is, hes.1, m3.is, hb.1, m4.is, nones_conform, trivial⟩, ?_⟩, ?_, by meant⟩
      · simp only [Connected, nones, Node.children, List.length_replicate]
      · rw [hfl]
        exact tidy_cons_gap h1 m1.behind <| tidy_append_gap hns.2 (tidy_cons_gap h2 m2.behind <| tidy_append_gap hes.2 (tidy_cons_gap h3 m3.behind <|
          tidy_append_gap hb.2 (tidy_one h4) m4.before) m3.before) m2.before
    refine ⟨.node .genericFor [.tok t1, .node .punct ns, .tok t2, es, .tok t3, Build.block, .tok t4, Build.noVec],
      by simp only [Build.genericFor, e1, e2, e3, e4, Outcome.bind], ?_, key _ block_readable, key b hb⟩
    have : Build.noVec = nones c.feat.luau 0 := by simp [nones, Build.noVec]
    rw [this, hfl]
    exact (hfl _ _).symm

/-- **C49, local assignment.** -/
theorem localAssignment_new (hc : c.Reachable) {ns es : Node} (hns : Readable c (.list .name [.comma] .nonempty) ns) (hes : Readable c (.exprs .nonempty) es) :
    ∃ n eq, Build.localAssignment c.feat ns = .ok n ∧ Build.basic c.feat c!" = " = .ok eq ∧
      n.flat = (Build.call (Build.call n c!"with_type_specifiers" (nones c.feat.luau ns.children.length)) c!"with_attributes" (nones c.feat.lua54 ns.children.length)).flat ∧
      Readable c (.cat .localAssignment)
        (Build.call (Build.call n c!"with_type_specifiers" (nones c.feat.luau ns.children.length)) c!"with_attributes" (nones c.feat.lua54 ns.children.length)) ∧
      Readable c (.cat .localAssignment)
        (Build.call (Build.call (Build.call (Build.call n c!"with_type_specifiers" (nones c.feat.luau ns.children.length)) c!"with_attributes"
          (nones c.feat.lua54 ns.children.length)) c!"with_equal_token" (.node .present [.tok eq])) c!"with_expressions" es) := by
  obtain ⟨t1, e1, m1, h1⟩ := core hc c.feat c!"local " [] .kLocal c!" " (by decide)
  obtain ⟨t2, e2, m2, h2⟩ := core hc c.feat c!" = " c!" " .equal c!" " (by decide)
  cases ns with
  | tok t => exact hns.1.elim
  | node k ns =>
    have hk := hns.1
    cases k <;> simp only [Conforms] at hk
    have hfl : ∀ n m eq es, (Node.node .localAssignment [.tok t1, nones c.feat.luau n, .node .punct ns, nones c.feat.lua54 m, eq, es]).flat =
        t1 :: ((Node.node .punct ns).flat ++ (eq.flat ++ es.flat)) := by
      intro n m eq es
      have hf := flatNames_absent (m := if c.feat.lua54 then m else 0) (n := if c.feat.luau then n else 0) hk.1
      rw [nones, nones, flat_localAssignment, hf]
      parts
    have hes' : ∃ x xs, es = .node .punct (x :: xs) := by
      have h := hes.1
      cases es with
      | tok t => exact h.elim
      | node k es =>
        cases k <;> simp only [Conforms] at h
        cases es with
        | nil => exact absurd rfl (h.2.2.1 rfl)
        | cons x xs => exact ⟨x, xs, rfl⟩
    have any : Conforms c (.exprs .any) es := by
      obtain ⟨x, xs, rfl⟩ := hes'
      exact ⟨hes.1.1, hes.1.2.1, nofun, fun _ => hes.1.2.2.2 nofun⟩
    refine ⟨.node .localAssignment [.tok t1, Build.noVec, .node .punct ns, Build.noVec, Build.absent, Build.noItems], t2,
      by simp only [Build.localAssignment, e1, Outcome.bind], e2, ?_, ⟨⟨rfl, rfl, ⟨m1.is, nones_conform, hns.1, nones_conform, rfl,
        (noItems_readable (c := c)).1, trivial⟩, ?_⟩, ?_, by meant⟩, ⟨⟨rfl, rfl, ⟨m1.is, nones_conform, hns.1, nones_conform, ⟨?_, trivial⟩, any, trivial⟩, ?_⟩, ?_, by meant⟩⟩
    · have h1 : Build.noVec = nones c.feat.luau 0 := by simp [nones, Build.noVec]
      have h2 : Build.noVec = nones c.feat.lua54 0 := by simp [nones, Build.noVec]
      conv => lhs; rw [h1]; arg 1; arg 2; arg 2; arg 2; arg 2; arg 1; rw [← h1, h2]
      rw [hfl]
      exact (hfl _ _ _ _).symm
    · refine ⟨⟨fun _ => rfl, fun _ => rfl⟩, ?_, ?_⟩ <;> simp only [nones, Node.children, List.length_replicate]
    · show Tidy c (Node.node .localAssignment [.tok t1, nones c.feat.luau (Node.node .punct ns).children.length, .node .punct ns,
        nones c.feat.lua54 (Node.node .punct ns).children.length, Build.absent, Build.noItems]).flat
      rw [hfl]
      parts
      exact tidy_cons_gap h1 m1.behind (by simpa [Build.noItems] using hns.2)
    · refine ⟨.equal, ?_, m2.type⟩
      split <;> simp
    · obtain ⟨x, xs, rfl⟩ := hes'
      refine ⟨⟨nofun, nofun⟩, ?_, ?_⟩ <;> simp only [nones, Node.children, List.length_replicate]
    · show Tidy c (Node.node .localAssignment [.tok t1, nones c.feat.luau (Node.node .punct ns).children.length, .node .punct ns,
        nones c.feat.lua54 (Node.node .punct ns).children.length, .node .present [.tok t2], es]).flat
      rw [hfl]
      simp only [flat_present_plain, List.flatMap_cons, List.flatMap_nil, Node.flat_tok, List.nil_append, List.cons_append]
      exact tidy_cons_gap h1 m1.behind <| tidy_append_gap hns.2 (tidy_cons_gap h2 m2.behind hes.2) m2.before

theorem name_calm (hc : c.Reachable) {name : TokRef} (hname : ReadableName c name) : ∀ ch, name.token.type.display.head? = some ch → Calm ch := by
  intro ch hch
  obtain ⟨x, hx⟩ := hname.1
  have hw := alone_name hc (hx ▸ hname.2.1)
  rw [hx] at hch
  cases x with
  | nil => cases hch
  | cons y ys =>
    cases hch
    exact word_calm hw.1.1 hw.1.2.1

/-- A name in angle brackets or between colons. -/
theorem tidy_name (hc : c.Reachable) {name t1 t2 : TokRef} {y z : Symbol} (hname : ReadableName c name) (hns : NoComment c [name])
    (m1 : Made t1 [] y []) (h1 : TidyToken c t1) (m2 : Made t2 [] z []) (h2 : TidyToken c t2) (he : Enabled c y)
    (hy : ¬ IsWord y.text) (hb : y ≠ .leftBracket) (hz : startsWith isWordChar z.text = false) : Tidy c [t1, name, t2] := by
  obtain ⟨x, hx⟩ := hname.1
  refine tidy_cons_touch h1 (tidy_cons_touch hname.2 (tidy_one h2) (noComment_cons (.inl m2.leading)) fun u hu => ?_) (fun t ht => hns t (by simpa using ht)) fun u hu => ?_
  · cases hu
    have h3 := h2.1
    have h4 := hname.2.1
    rw [m2.type] at h3
    rw [hx] at h4
    rw [hx, m2.type]
    exact touch_name hc h4 h3 hz
  · cases hu
    rw [m1.type]
    exact touch_symbol hc he hname.2.1 hy hb (name_calm hc hname)

/-- **C49, label.** -/
theorem label_new (hc : c.Reachable) {name : TokRef} (hname : ReadableName c name) (hns : NoComment c [name])
    (hv : c.has .lua52 = true ∨ c.has .luajit = true) : ∃ n, Build.label c.feat name = .ok n ∧ Readable c (.cat .label) n := by
  have he : Enabled c .twoColons := .inr (hv.elim (fun h => ⟨.lua52, by decide, h⟩) fun h => ⟨.luajit, by decide, h⟩)
  obtain ⟨t1, e1, m1⟩ := made_of_makes (colons_made c.feat.luau c.feat.lua52 c.feat.lua53 c.feat.lua54 c.feat.luajit c.feat.cfxlua
    (hv.imp (fun h => feat_of_has (v := .lua52) h) (fun h => feat_of_has (v := .luajit) h) |> Or.inr))
  have h1 : TidyToken c t1 := m1.tidy hc he rfl rfl
  refine ⟨.node .label [.tok t1, .tok name, .tok t1], by simp only [Build.label, e1, Outcome.bind], ⟨rfl, rfl, ⟨m1.is, hname.1, m1.is, trivial⟩, trivial⟩, ?_, by meant⟩
  parts
  exact tidy_name hc hname hns m1 h1 m1 h1 he (fun h => absurd h.1 (by decide)) nofun (by decide)

/-- **C49, attribute.** -/
theorem attribute_new (hc : c.Reachable) {name : TokRef} (hname : ReadableName c name) (hns : NoComment c [name])
    (hv : c.has .lua54 = true ∨ c.has .cfxlua = true) : ∃ n, Build.varAttribute c.feat name = .ok n ∧ Readable c (.cat .attribute) n := by
  obtain ⟨t1, e1, m1, h1⟩ := core' hc c.feat c!"<" [] .lessThan [] (by decide)
  obtain ⟨t2, e2, m2, h2⟩ := core' hc c.feat c!">" [] .greaterThan [] (by decide)
  refine ⟨.node .attribute [span t1 t2, .tok name], by simp only [Build.varAttribute, e1, e2, Outcome.bind],
    ⟨rfl, by simpa [available, Cfg.lua54, Cfg.cfxlua] using hv, ⟨⟨m1.is, m2.is, trivial⟩, hname.1, trivial⟩, trivial⟩, ?_, by meant⟩
  rw [span, flat_attribute_wrap]
  exact tidy_name hc hname hns m1 h1 m2 h2 (.inl rfl) (fun h => absurd h.1 (by decide)) nofun (by decide)

/-- **C49, `goto`**, for labels with white space in front of them. -/
theorem gotoStmt_new_partial (hc : c.Reachable) {label : TokRef} (hname : ReadableName c label) (hns : Gap c (text label.leading))
    (hv : c.has .lua52 = true ∨ c.has .luajit = true) : ∃ n, Build.gotoStmt c.feat label = .ok n ∧ Readable c (.cat .gotoStmt) n := by
  have he : Enabled c .kGoto := .inr (hv.elim (fun h => ⟨.lua52, by decide, h⟩) fun h => ⟨.luajit, by decide, h⟩)
  obtain ⟨t1, e1, m1⟩ := made_of_makes (goto_made c.feat.luau c.feat.lua52 c.feat.lua53 c.feat.lua54 c.feat.luajit c.feat.cfxlua
    (hv.imp (fun h => feat_of_has (v := .lua52) h) (fun h => feat_of_has (v := .luajit) h)))
  have h1 : TidyToken c t1 := m1.tidy hc he rfl rfl
  refine ⟨.node .gotoStmt [.tok t1, .tok label], by simp only [Build.gotoStmt, e1, Outcome.bind], ⟨rfl, rfl, ⟨m1.is, hname.1, trivial⟩, trivial⟩, ?_, by meant⟩
  parts
  exact tidy_append_gap (xs := [t1]) (tidy_one h1) (tidy_one hname.2) hns

/-- **C49, block.**  Statements with white space behind each. -/
theorem block_new {ss : List Node} (h : ∀ s ∈ ss, Readable c (.cat .stmt) s ∧ ∀ t, s.flat.getLast? = some t → Gap c (text t.trailing))
    (hd : distincts (ss.map fun s => .node .tuple [s, .node .absent []]))
    (hu : c.has .luau = true → unasserteds (ss.map fun s => .node .tuple [s, .node .absent []])) :
    Readable c .block (Build.call Build.block c!"with_stmts" (.node .vec (ss.map fun s => .node .tuple [s, .node .absent []]))) := by
  refine ⟨⟨rfl, rfl, ⟨?_, rfl, trivial⟩, hd⟩, ?_, fun hl => ?_⟩
  · show ConformsEach c _ _
    clear hd hu
    induction ss with
    | nil => trivial
    | cons s ss ih => exact ⟨⟨(h s (by simp)).1.1, rfl, trivial⟩, ih fun s hs => h s (by simp [hs])⟩
  · show Tidy c (Node.node .block [.node .vec _, .node .absent []]).flat
    simp only [flat_block_plain, flat_vec_plain, List.flatMap_cons, List.flatMap_nil, flat_absent_plain, List.append_nil]
    clear hd hu
    induction ss with
    | nil => trivial
    | cons s ss ih =>
      simp only [List.map_cons, List.flatMap_cons, flat_tuple_plain, List.flatMap_nil, flat_absent_plain, List.append_nil]
      exact tidy_append_last_gap (h s (by simp)).1.2 (ih fun s hs => h s (by simp [hs])) (h s (by simp)).2
  · show (Node.node .block [.node .vec _, .node .absent []]).Every Chosen
    simp only [Node.every_node, List.forall_mem_cons, List.not_mem_nil, false_imp_iff, implies_true, and_true]
    refine ⟨hu hl, ⟨trivial, fun m hm => ?_⟩, trivial⟩
    obtain ⟨s, hs, rfl⟩ := List.mem_map.1 hm
    simp only [Node.every_node, List.forall_mem_cons, List.not_mem_nil, false_imp_iff, implies_true, and_true]
    exact ⟨trivial, (h s hs).1.3 hl, trivial⟩

/-! ## Luau

The types must be types of values where a type of a value is read. -/

section
variable {name : TokRef} {a b d : Node}

theorem atSign_made (hl : c.feat.luau = true) : ∃ t, Build.symbol c.feat c!"@" = .ok t ∧ Made t [] .atSign [] := by
  have h := at_made c.feat.lua52 c.feat.lua53 c.feat.lua54 c.feat.luajit c.feat.cfxlua
  have e : (⟨true, c.feat.lua52, c.feat.lua53, c.feat.lua54, c.feat.luajit, c.feat.cfxlua⟩ : Features) = c.feat := by rw [← hl]
  rw [e] at h
  exact made_of_makes h

theorem twoColons_made (hl : c.feat.luau = true) : ∃ t, Build.symbol c.feat c!"::" = .ok t ∧ Made t [] .twoColons [] :=
  made_of_makes (colons_made c.feat.luau c.feat.lua52 c.feat.lua53 c.feat.lua54 c.feat.luajit c.feat.cfxlua (.inl hl))

/-- **C49, Luau types.** -/
theorem luau_types_new (hc : c.Reachable) (hl : c.has .luau = true) (hname : Term.name.Is name) :
    (Conforms c (.cat .typeFieldKey) a → Conforms c .type b → ∃ n, Build.typeField c.feat a b = .ok n ∧ Conforms c (.cat .typeField) n) ∧
    (Conforms c .type a → ∃ n, Build.typeAssertion c.feat a = .ok n ∧ Conforms c (.cat .typeAssertion) n) ∧
    (Conforms c .type a → ∃ n, Build.typeDecl c.feat name a = .ok n ∧ Conforms c (.cat .typeDecl) n) ∧
    (Conforms c (.cat .typeInfo) a → ∃ n, Build.typeSpec c.feat a = .ok n ∧ Conforms c (.cat .typeSpec) n) ∧
    (Conforms c (.cat .funcBody) a → ∃ n, Build.typeFunction c.feat name a = .ok n ∧ Conforms c (.cat .typeFunction) n) ∧
    (Conforms c (.cat .typeDecl) a → Conforms c (.cat .exportedTypeDecl) (Build.exportedTypeDecl a)) ∧
    (Conforms c (.cat .typeFunction) a → Conforms c (.cat .exportedTypeFunction) (Build.exportedTypeFunction a)) ∧
    (Conforms c (.cat .genericParam) a → Conforms c (.cat .genericDeclParam) (Build.genericDeclParam a)) ∧
    (Conforms c (.cat .typeInfo) a → Conforms c (.cat .typeArg) (Build.typeArg a)) ∧
    (Conforms c (.list (.cat .genericDeclParam) [.comma] .nonempty) a →
      ∃ n, Build.genericDecl c.feat = .ok n ∧ Conforms c (.cat .genericDecl) (Build.call n c!"with_generics" a)) ∧
    (Conforms c .types a → ∃ n, Build.typeInst c.feat = .ok n ∧ Conforms c (.cat .typeInst) n ∧ Conforms c (.cat .typeInst) (Build.call n c!"with_types" a)) := by
  obtain ⟨t1, e1, m1, _⟩ := core' hc c.feat c!": " [] .colon c!" " (by decide)
  obtain ⟨t2, e2, m2⟩ := twoColons_made (feat_of_has (v := .luau) hl)
  obtain ⟨t3, e3, m3, _⟩ := core' hc c.feat c!" = " c!" " .equal c!" " (by decide)
  obtain ⟨t4, e4, m4, _⟩ := core hc c.feat c!"function " [] .kFunction c!" " (by decide)
  obtain ⟨t5, e5, m5, _⟩ := core' hc c.feat c!"<" [] .lessThan [] (by decide)
  obtain ⟨t6, e6, m6, _⟩ := core' hc c.feat c!">" [] .greaterThan [] (by decide)
  have htype : (Term.word [c!"type"]).Is (Build.word c!"type") := ⟨_, by simp, rfl⟩
  have hexport : (Term.word [c!"export"]).Is (Build.word c!"export") := ⟨_, by simp, rfl⟩
  have hinst : ∀ a, Conforms c .types a → Conforms c (.cat .typeInst) (.node .typeInst [span t5 t6, span t5 t6, a]) := fun a ha =>
    ⟨rfl, hl, ⟨⟨m5.is, m6.is, trivial⟩, ⟨m5.is, m6.is, trivial⟩, ha, trivial⟩, trivial⟩
  refine ⟨fun ha hb => ⟨.node .typeField [Build.absent, a, .tok t1, b], by simp only [Build.typeField, e1, Outcome.bind], rfl, rfl, ⟨rfl, ha, m1.is, hb, trivial⟩, trivial⟩,
    fun ha => ⟨.node .typeAssertion [.tok t2, a], by simp only [Build.typeAssertion, e2, Outcome.bind], rfl, rfl, ⟨m2.is, ha, trivial⟩, trivial⟩,
    fun ha => ⟨.node .typeDecl [.tok (Build.word c!"type"), .tok name, Build.absent, .tok t3, a], by simp only [Build.typeDecl, e3, Outcome.bind], rfl, rfl, ⟨htype, hname, rfl, m3.is, ha, trivial⟩, trivial⟩,
    fun ha => ⟨.node .typeSpec [.tok t1, a], by simp only [Build.typeSpec, e1, Outcome.bind], rfl, hl, ⟨m1.is, ha, trivial⟩, trivial⟩,
    fun ha => ⟨.node .typeFunction [.tok (Build.word c!"type"), .tok t4, .tok name, a], by simp only [Build.typeFunction, e4, Outcome.bind], rfl, rfl, ⟨htype, m4.is, hname, ha, trivial⟩, trivial⟩,
    fun ha => ⟨rfl, rfl, ⟨hexport, ha, trivial⟩, trivial⟩,
    fun ha => ⟨rfl, rfl, ⟨hexport, ha, trivial⟩, trivial⟩,
    fun ha => ⟨rfl, rfl, ⟨ha, rfl, trivial⟩, trivial⟩,
    fun ha => ⟨rfl, rfl, ⟨rfl, ha, trivial⟩, trivial⟩,
    fun ha => ⟨.node .genericDecl [span t5 t6, Build.noItems], by simp only [Build.genericDecl, e5, e6, Outcome.bind], rfl, hl,
      ⟨⟨m5.is, m6.is, trivial⟩, ha, trivial⟩, trivial⟩,
    fun ha => ⟨.node .typeInst [span t5 t6, span t5 t6, Build.noItems], by simp only [Build.typeInst, e5, e6, Outcome.bind],
      hinst _ (noItems_readable (c := c)).1, hinst a ha⟩⟩

/-- **C49, Luau expressions and attributes.** -/
theorem luau_exprs_new (hc : c.Reachable) (hl : c.has .luau = true) (hname : Term.name.Is name) (ha : Conforms c .expr a) (hb : Conforms c .expr b)
    (hd : Conforms c .expr d) :
    (∃ n, Build.ifExpr c.feat a b d = .ok n ∧ Conforms c (.cat .ifExpr) n) ∧
    (∃ n, Build.elseIfExpr c.feat a b = .ok n ∧ Conforms c (.cat .elseIfExpr) n) ∧
    (∃ n, Build.luauAttr c.feat name = .ok n ∧ Conforms c (.cat .luauAttr) n) := by
  obtain ⟨t1, e1, m1, _⟩ := core' hc c.feat c!"if " [] .kIf c!" " (by decide)
  obtain ⟨t2, e2, m2, _⟩ := core' hc c.feat c!" then" c!" " .kThen [] (by decide)
  obtain ⟨t3, e3, m3, _⟩ := core' hc c.feat c!" else " c!" " .kElse c!" " (by decide)
  obtain ⟨t4, e4, m4, _⟩ := core' hc c.feat c!" elseif " c!" " .kElseIf c!" " (by decide)
  obtain ⟨t5, e5, m5, _⟩ := core' hc c.feat c!" then " c!" " .kThen c!" " (by decide)
  have hf := feat_of_has (v := .luau) hl
  obtain ⟨t6, e6, m6⟩ := atSign_made hf
  exact ⟨⟨.node .ifExpr [.tok t1, a, .tok t2, b, Build.absent, .tok t3, d], by simp only [Build.ifExpr, e1, e2, e3, Outcome.bind], rfl, rfl, ⟨m1.is, ha, m2.is, hb, rfl, m3.is, hd, trivial⟩, trivial⟩,
    ⟨.node .elseIfExpr [.tok t4, a, .tok t5, b], by simp only [Build.elseIfExpr, e4, e5, Outcome.bind], rfl, rfl, ⟨m4.is, ha, m5.is, hb, trivial⟩, trivial⟩,
    ⟨.node .luauAttr [.tok t6, .tok name], by simp only [Build.luauAttr, e6, Outcome.bind], rfl, hf, ⟨m6.is, hname, trivial⟩, trivial⟩⟩

/-- **C49, field of a table type.** -/
theorem typeField_new (hc : c.Reachable) (ha : Readable c (.cat .typeFieldKey) a) (hb : Readable c .type b) (hs : single b = true) :
    ∃ n, Build.typeField c.feat a b = .ok n ∧ Readable c (.cat .typeField) n := by
  obtain ⟨t1, e1, m1, h1⟩ := core' hc c.feat c!": " [] .colon c!" " (by decide)
  refine ⟨.node .typeField [Build.absent, a, .tok t1, b], by simp only [Build.typeField, e1, Outcome.bind],
    ⟨rfl, rfl, ⟨rfl, ha.1, m1.is, hb.1, trivial⟩, trivial⟩, ?_, by meant⟩
  parts
  obtain ⟨xs, t, e, ht⟩ := fieldKey_last ha.1
  have hx : Tidy c (xs ++ [t]) := e ▸ ha.2
  rw [e]
  refine tidy_append hx (tidy_cons_gap h1 m1.behind hb.2) fun t' u h2 h3 => ?_
  cases h3
  simp only [List.getLast?_append, List.getLast?_singleton, Option.some_or, Option.some.injEq] at h2
  subst h2
  have hl := tidy_last hx (t := t) (by simp)
  rcases spacing_append hl.2.2 (.inl m1.leading) with h | h
  · refine .inr ⟨h.1, h.2, ?_⟩
    have h4 := h1.1
    rw [m1.type] at h4 ⊢
    rcases ht with ⟨x, hx⟩ | hx
    · rw [hx]
      exact touch_name hc (hx ▸ hl.1) h4 (by decide)
    · rw [hx]
      exact touch_scans hc (hx ▸ hl.1) h4 (scans_rightBracket _) nofun
  · exact .inl h

/-- **C49, type assertion.** -/
theorem typeAssertion_new (hc : c.Reachable) (hl : c.has .luau = true) (ha : Readable c .type a) (hn : NoComment c a.flat) (hs : single a = true) :
    ∃ n, Build.typeAssertion c.feat a = .ok n ∧ Readable c (.cat .typeAssertion) n := by
  obtain ⟨t1, e1, m1⟩ := twoColons_made (feat_of_has (v := .luau) hl)
  have h1 : TidyToken c t1 := m1.tidy hc (.inr ⟨.luau, by decide, hl⟩) rfl rfl
  refine ⟨.node .typeAssertion [.tok t1, a], by simp only [Build.typeAssertion, e1, Outcome.bind], ⟨rfl, rfl, ⟨m1.is, ha.1, trivial⟩, trivial⟩, ?_, by meant⟩
  parts
  refine tidy_cons_touch h1 ha.2 hn fun u hu => ?_
  have h2 := h1.1
  rw [m1.type] at h2 ⊢
  exact touch_scans hc h2 (tidy_head ha.2 hu).1 (scans_twoColons hl _) nofun

/-- **C49, type declaration.** -/
theorem typeDecl_new (hc : c.Reachable) (hname : ReadableName c name) (ha : Readable c .type a) (hs : single a = true) :
    ∃ n, Build.typeDecl c.feat name a = .ok n ∧ Readable c (.cat .typeDecl) n ∧ Readable c (.cat .exportedTypeDecl) (Build.exportedTypeDecl n) := by
  obtain ⟨t1, e1, m1, h1⟩ := core' hc c.feat c!" = " c!" " .equal c!" " (by decide)
  obtain ⟨w1, w2, w3⟩ := word_tidy hc (x := c!"type") (by decide)
  obtain ⟨v1, v2, v3⟩ := word_tidy hc (x := c!"export") (by decide)
  have key : Readable c (.cat .typeDecl) (.node .typeDecl [.tok (Build.word c!"type"), .tok name, Build.absent, .tok t1, a]) := by
    refine ⟨⟨rfl, rfl, ⟨w3, hname.1, rfl, m1.is, ha.1, trivial⟩, trivial⟩, ?_, by meant⟩
    parts
    exact tidy_cons_gap w1 w2 <| tidy_append_gap (xs := [name]) (tidy_one hname.2) (tidy_cons_gap h1 m1.behind ha.2) m1.before
  refine ⟨_, by simp only [Build.typeDecl, e1, Outcome.bind], key, ⟨rfl, rfl, ⟨v3, key.1, trivial⟩, trivial⟩, ?_, by meant⟩
  simp only [Build.exportedTypeDecl, flat_exportedTypeDecl_plain, List.flatMap_cons, List.flatMap_nil, List.append_nil, Node.flat_tok, List.cons_append, List.nil_append]
  exact tidy_cons_gap v1 v2 key.2

/-- **C49, type of a name.** -/
theorem typeSpec_new (hc : c.Reachable) (hl : c.has .luau = true) (ha : Readable c (.cat .typeInfo) a) :
    ∃ n, Build.typeSpec c.feat a = .ok n ∧ Readable c (.cat .typeSpec) n := by
  obtain ⟨t1, e1, m1, h1⟩ := core' hc c.feat c!": " [] .colon c!" " (by decide)
  refine ⟨.node .typeSpec [.tok t1, a], by simp only [Build.typeSpec, e1, Outcome.bind], ⟨rfl, hl, ⟨m1.is, ha.1, trivial⟩, trivial⟩, ?_, by meant⟩
  parts
  exact tidy_cons_gap h1 m1.behind ha.2

/-- **C49, type function.** -/
theorem typeFunction_new (hc : c.Reachable) (hname : ReadableName c name) (ha : Readable c (.cat .funcBody) a) (hn : NoComment c a.flat) :
    ∃ n, Build.typeFunction c.feat name a = .ok n ∧ Readable c (.cat .typeFunction) n ∧ Readable c (.cat .exportedTypeFunction) (Build.exportedTypeFunction n) := by
  obtain ⟨t1, e1, m1, h1⟩ := core hc c.feat c!"function " [] .kFunction c!" " (by decide)
  obtain ⟨w1, w2, w3⟩ := word_tidy hc (x := c!"type") (by decide)
  obtain ⟨v1, v2, v3⟩ := word_tidy hc (x := c!"export") (by decide)
  have key : Readable c (.cat .typeFunction) (.node .typeFunction [.tok (Build.word c!"type"), .tok t1, .tok name, a]) := by
    refine ⟨⟨rfl, rfl, ⟨w3, m1.is, hname.1, ha.1, trivial⟩, trivial⟩, ?_, by meant⟩
    parts
    exact tidy_cons_gap w1 w2 <| tidy_cons_gap h1 m1.behind <| tidy_append_body hc (xs := []) (t := name) (tidy_one hname.2) (.inl hname.1) ha hn
  refine ⟨_, by simp only [Build.typeFunction, e1, Outcome.bind], key, ⟨rfl, rfl, ⟨v3, key.1, trivial⟩, trivial⟩, ?_, by meant⟩
  simp only [Build.exportedTypeFunction, flat_exportedTypeFunction_plain, List.flatMap_cons, List.flatMap_nil, List.append_nil, Node.flat_tok, List.cons_append, List.nil_append]
  exact tidy_cons_gap v1 v2 key.2

/-- **C49, parameters without defaults and arguments without names.** -/
theorem typeParam_new (ha : Readable c (.cat .genericParam) a) (hb : Readable c (.cat .typeInfo) b) :
    Readable c (.cat .genericDeclParam) (Build.genericDeclParam a) ∧ Readable c (.cat .typeArg) (Build.typeArg b) := by
  refine ⟨⟨⟨rfl, rfl, ⟨ha.1, rfl, trivial⟩, trivial⟩, ?_, by meant⟩, ⟨⟨rfl, rfl, ⟨rfl, hb.1, trivial⟩, trivial⟩, ?_, by meant⟩⟩
  · simp only [Build.genericDeclParam]
    parts
    exact ha.2
  · simp only [Build.typeArg]
    parts
    exact hb.2

/-- The last token of the list does not swallow this symbol behind it. -/
def EndsBefore (c : Cfg) (n : Node) (y : Symbol) : Prop := ∀ t, n.flat.getLast? = some t → Joined c t ⟨[], .new (.symbol y), []⟩
/-- This symbol in front of the list does not swallow its first token. -/
def StartsBehind (c : Cfg) (y : Symbol) (n : Node) : Prop := ∀ t, n.flat.head? = some t → Joined c ⟨[], .new (.symbol y), []⟩ t

theorem joined_congr {t t' u u' : TokRef} (h : Joined c t u) (h1 : text t'.trailing = text t.trailing) (h2 : t'.token.type = t.token.type)
    (h3 : text u'.leading = text u.leading) (h4 : u'.token.type = u.token.type) : Joined c t' u' := by
  unfold Joined at h ⊢
  rw [h1, h2, h3, h4]
  exact h

/-- **C49, declaration of type parameters**, if the last token is told apart from the bracket behind it. -/
theorem genericDecl_new_partial (hc : c.Reachable) (hl : c.has .luau = true) (ha : Readable c (.list (.cat .genericDeclParam) [.comma] .nonempty) a)
    (hs : (elements a).Pairwise fun p q => (packParam p = true → packParam q = true) ∧ (hasDefault p = true → hasDefault q = true))
    (hn : NoComment c a.flat) (h2 : EndsBefore c a .greaterThan) :
    ∃ n, Build.genericDecl c.feat = .ok n ∧ Readable c (.cat .genericDecl) (Build.call n c!"with_generics" a) := by
  obtain ⟨t1, e1, m1, g1⟩ := core' hc c.feat c!"<" [] .lessThan [] (by decide)
  obtain ⟨t2, e2, m2, g2⟩ := core' hc c.feat c!">" [] .greaterThan [] (by decide)
  refine ⟨.node .genericDecl [span t1 t2, Build.noItems], by simp only [Build.genericDecl, e1, e2, Outcome.bind],
    ⟨rfl, hl, ⟨⟨m1.is, m2.is, trivial⟩, ha.1, trivial⟩, trivial⟩, ?_, by meant⟩
  show Tidy c (Node.node .genericDecl [span t1 t2, a]).flat
  rw [span, flat_genericDecl_wrap]
  obtain ⟨u, us, e, hu⟩ := generics_start ha.1
  refine tidy_cons_touch g1 (tidy_append ha.2 (tidy_one g2) fun t v ht hv => ?_) (noComment_append hn (noComment_cons (.inl m2.leading))) fun v hv => ?_
  · cases hv
    exact joined_congr (h2 t ht) rfl rfl m2.leading m2.type
  · rw [e] at hv
    cases hv
    have hv := tidy_head ha.2 (t := u) (by rw [e]; rfl)
    rw [m1.type]
    exact touch_symbol hc (.inl rfl) hv.1 (fun h => absurd h.1 (by decide)) nofun (name_calm hc ⟨hu, hv⟩)

/-- **C49, type instantiation**, without the shifts of Lua 5.3, if the brackets are told apart from the tokens next to them. -/
theorem typeInst_new_partial (hc : c.Reachable) (hl : c.has .luau = true) (hv : c.hasAny [.lua53, .cfxlua] = false) (ha : Readable c .types a)
    (hs : ∀ m ∈ elements a, led m = false) (h1 : StartsBehind c .lessThan a) (h2 : EndsBefore c a .greaterThan) :
    ∃ n, Build.typeInst c.feat = .ok n ∧ Readable c (.cat .typeInst) n ∧ Readable c (.cat .typeInst) (Build.call n c!"with_types" a) := by
  obtain ⟨t1, e1, m1, g1⟩ := core' hc c.feat c!"<" [] .lessThan [] (by decide)
  obtain ⟨t2, e2, m2, g2⟩ := core' hc c.feat c!">" [] .greaterThan [] (by decide)
  have touch : ∀ y z, y = .lessThan ∨ y = .greaterThan → z = .lessThan ∨ z = .greaterThan → MayTouch c (.symbol y) (.symbol z) := by
    intro y z hy hz
    refine touch_scans hc (symbol_alone hc (.inl ?_)) (symbol_alone hc (.inl ?_)) (scans_angle hv hy ?_) ?_
    · rcases hy with rfl | rfl <;> rfl
    · rcases hz with rfl | rfl <;> rfl
    · rcases hz with rfl | rfl <;> decide
    · rcases hy with rfl | rfl <;> nofun
  have key : ∀ a, Readable c .types a → (∀ m ∈ elements a, led m = false) → StartsBehind c .lessThan a → EndsBefore c a .greaterThan →
      Readable c (.cat .typeInst) (.node .typeInst [span t1 t2, span t1 t2, a]) := by
    intro a ha hs h1 h2
    refine ⟨⟨rfl, hl, ⟨⟨m1.is, m2.is, trivial⟩, ⟨m1.is, m2.is, trivial⟩, ha.1, trivial⟩, trivial⟩, ?_, by meant⟩
    rw [span, flat_typeInst]
    have hend : Tidy c [t2, t2] := tidy_cons g2 (tidy_one g2) fun v hv => by
      cases hv
      exact .inr ⟨m2.trailing, m2.leading, by rw [m2.type]; exact touch _ _ (.inr rfl) (.inr rfl)⟩
    refine tidy_cons g1 (tidy_cons g1 (tidy_append ha.2 hend fun t v ht hv => ?_) fun v hv => ?_) fun v hv => ?_
    · cases hv
      exact joined_congr (h2 t ht) rfl rfl m2.leading m2.type
    · cases hf : a.flat with
      | nil =>
        rw [hf] at hv
        cases hv
        exact .inr ⟨m1.trailing, m2.leading, by rw [m1.type, m2.type]; exact touch _ _ (.inl rfl) (.inr rfl)⟩
      | cons u us =>
        rw [hf] at hv
        cases hv
        exact joined_congr (h1 v (by rw [hf]; rfl)) m1.trailing m1.type rfl rfl
    · cases hv
      exact .inr ⟨m1.trailing, m1.leading, by rw [m1.type]; exact touch _ _ (.inl rfl) (.inl rfl)⟩
  refine ⟨.node .typeInst [span t1 t2, span t1 t2, Build.noItems], by simp only [Build.typeInst, e1, e2, Outcome.bind],
    key _ noItems_readable nofun nofun nofun, key a ha hs h1 h2⟩

/-- **C49, branch of a conditional expression.** -/
theorem elseIfExpr_new (hc : c.Reachable) (ha : Readable c .expr a) (hb : Readable c .expr b) :
    ∃ n, Build.elseIfExpr c.feat a b = .ok n ∧ Readable c (.cat .elseIfExpr) n := by
  obtain ⟨t1, e1, m1, h1⟩ := core' hc c.feat c!" elseif " c!" " .kElseIf c!" " (by decide)
  obtain ⟨t2, e2, m2, h2⟩ := core' hc c.feat c!" then " c!" " .kThen c!" " (by decide)
  refine ⟨.node .elseIfExpr [.tok t1, a, .tok t2, b], by simp only [Build.elseIfExpr, e1, e2, Outcome.bind],
    ⟨rfl, rfl, ⟨m1.is, ha.1, m2.is, hb.1, trivial⟩, trivial⟩, ?_, by meant⟩
  parts
  exact tidy_cons_gap h1 m1.behind <| tidy_append_gap ha.2 (tidy_cons_gap h2 m2.behind hb.2) m2.before

/-- **C49, conditional expression**, for expressions with white space in front of them. -/
theorem ifExpr_new_partial (hc : c.Reachable) (ha : Readable c .expr a) (hb : Readable c .expr b) (hd : Readable c .expr d)
    (hg : ∀ t, b.flat.head? = some t → Gap c (text t.leading)) :
    ∃ n, Build.ifExpr c.feat a b d = .ok n ∧ Readable c (.cat .ifExpr) n := by
  obtain ⟨t1, e1, m1, h1⟩ := core' hc c.feat c!"if " [] .kIf c!" " (by decide)
  obtain ⟨t2, e2, m2, h2⟩ := core' hc c.feat c!" then" c!" " .kThen [] (by decide)
  obtain ⟨t3, e3, m3, h3⟩ := core' hc c.feat c!" else " c!" " .kElse c!" " (by decide)
  refine ⟨.node .ifExpr [.tok t1, a, .tok t2, b, Build.absent, .tok t3, d], by simp only [Build.ifExpr, e1, e2, e3, Outcome.bind],
    ⟨rfl, rfl, ⟨m1.is, ha.1, m2.is, hb.1, rfl, m3.is, hd.1, trivial⟩, trivial⟩, ?_, by meant⟩
  parts
  refine tidy_cons_gap h1 m1.behind <| tidy_append_gap ha.2 (tidy_cons h2 (tidy_append_gap hb.2 (tidy_cons_gap h3 m3.behind hd.2) m3.before) fun u hu => ?_) m2.before
  cases hf : b.flat with
  | nil =>
    rw [hf] at hu
    cases hu
    exact .inl (spacing_gap h2.2.2 m3.before)
  | cons v vs =>
    rw [hf] at hu
    simp only [List.cons_append, List.head?_cons, Option.some.injEq] at hu
    exact .inl (spacing_gap h2.2.2 (hg u (by rw [hf, hu]; rfl)))

/-- **C49, attribute of a function.** -/
theorem luauAttr_new (hc : c.Reachable) (hl : c.has .luau = true) (hname : ReadableName c name) (hns : NoComment c [name]) :
    ∃ n, Build.luauAttr c.feat name = .ok n ∧ Readable c (.cat .luauAttr) n := by
  have hf := feat_of_has (v := .luau) hl
  have he : Enabled c .atSign := .inr ⟨.luau, by decide, hl⟩
  obtain ⟨t1, e1, m1⟩ := atSign_made hf
  have h1 : TidyToken c t1 := m1.tidy hc he rfl rfl
  refine ⟨.node .luauAttr [.tok t1, .tok name], by simp only [Build.luauAttr, e1, Outcome.bind], ⟨rfl, hf, ⟨m1.is, hname.1, trivial⟩, trivial⟩, ?_, by meant⟩
  parts
  refine tidy_cons_touch h1 (tidy_one hname.2) hns fun u hu => ?_
  cases hu
  rw [m1.type]
  exact touch_symbol hc he hname.2.1 (fun h => absurd h.1 (by decide)) nofun (name_calm hc hname)

end

/-! ## Where the claim fails

Constructors that leave out white space the result needs. -/

/-- A word without white space. -/
def bareWord (x : Text) : TokRef := ⟨[], .new (.identifier x), []⟩
/-- A variable. -/
def bareVar (x : Text) : Node := .node .exprVar [.node .varName [.tok (bareWord x)]]
/-- `local x`. -/
def bareLocal (x : Text) : Node :=
  .node .block [.node .vec [.node .tuple [.node .stmtLocalAssignment [.node .localAssignment [.tok ⟨[], .new (.symbol .kLocal), [.new (.whitespace c!" ")]⟩,
    .node .vec [], .node .punct [.node .pairEnd [.tok (bareWord x)]], .node .vec [], .node .absent [], .node .punct []]], .node .absent []]], .node .absent []]
/-- Lua 5.2. -/
def cfg52 : Cfg := ⟨⟨false, true, false, false, false, false⟩, .only .lua52⟩

/-- **C49, `Goto::new`.**  A label without white space in front of it is printed as part of the keyword. -/
theorem goto_glued : (∃ n, Build.gotoStmt cfg52.feat (bareWord c!"x") = .ok n ∧ n.display = c!"gotox") ∧
    ∃ r, parseFallible cfg52 c!"gotox" = .ok r ∧ r.errors.isEmpty = false :=
  ⟨Outcome.run (by decide +kernel), Outcome.run (by decide +kernel)⟩

/-- **C49, `If::new`.**  A block without white space in front of it is printed as part of the keyword. -/
theorem if_glued : (∃ n, Build.ifBlock cfg51.feat (bareVar c!"x") = .ok n ∧
      (Build.call n c!"with_block" (bareLocal c!"y")).display = c!"if x thenlocal y\nend") ∧
    ∃ r, parseFallible cfg51 c!"if x thenlocal y\nend" = .ok r ∧ r.errors.isEmpty = false :=
  ⟨Outcome.run (by decide +kernel), Outcome.run (by decide +kernel)⟩

/-- **C49, `While::new`.**  A block without white space behind it is printed as part of the keyword. -/
theorem while_glued : (∃ n, Build.whileBlock cfg51.feat (bareVar c!"x") = .ok n ∧
      (Build.call n c!"with_block" (bareLocal c!"y")).display = c!"while x do\nlocal yend\n") ∧
    ∃ r, parseFallible cfg51 c!"while x do\nlocal yend\n" = .ok r ∧ r.errors.isEmpty = false :=
  ⟨Outcome.run (by decide +kernel), Outcome.run (by decide +kernel)⟩

/-- **C49, `ElseIf::new`.**  It is printed as part of the `then` that `If::new` makes. -/
theorem elseif_glued : (∃ n m, Build.ifBlock cfg51.feat (bareVar c!"x") = .ok n ∧ Build.elseIf cfg51.feat (bareVar c!"y") = .ok m ∧
      (Build.call n c!"with_else_if" (.node .present [.node .vec [m]])).display = c!"if x thenelseif y then\n\nend") ∧
    ∃ r, parseFallible cfg51 c!"if x thenelseif y then\n\nend" = .ok r ∧ r.errors.isEmpty = false :=
  ⟨Outcome.run₂ (by decide +kernel), Outcome.run (by decide +kernel)⟩

/-- **C49, `IfExpression::new`.**  The expression is printed as part of the keyword. -/
theorem ifExpr_glued : (∃ n, Build.ifExpr cfgLuau.feat (bareVar c!"x") (bareVar c!"y") (bareVar c!"z") = .ok n ∧
      n.display = c!"if x theny else z") ∧
    ∃ r, parseFallible cfgLuau c!"return if x theny else z" = .ok r ∧ r.errors.isEmpty = false :=
  ⟨Outcome.run (by decide +kernel), Outcome.run (by decide +kernel)⟩

/-- **C49, `TypeInstantiation::new`.**  With Lua 5.3 in addition to Luau, the brackets are printed as shifts. -/
theorem typeInst_glued : (∃ n, Build.typeInst allCfg.feat = .ok n ∧ n.display = c!"<<>>") ∧
    (∃ r, parseFallible allCfg c!"f<<>>()" = .ok r ∧ r.errors.isEmpty = false) ∧
    ∃ r, parseFallible cfgLuauOnly c!"f<<>>()" = .ok r ∧ r.errors.isEmpty = true :=
  ⟨Outcome.run (by decide +kernel), Outcome.run (by decide +kernel), Outcome.run (by decide +kernel)⟩

/-- **C49, `LuauAttribute::new`.**  `function` is printed as part of the name of the attribute. -/
theorem attribute_glued : (∃ n m, Build.luauAttr cfgLuau.feat (bareWord c!"native") = .ok n ∧
      Build.functionDecl cfgLuau.feat (Build.functionName (.node .punct [.node .pairEnd [.tok (bareWord c!"f")]])) = .ok m ∧
      (Build.call m c!"with_attributes" (.node .vec [n])).display = c!"@nativefunction f()\nend") ∧
    ∃ r, parseFallible cfgLuau c!"@nativefunction f()\nend" = .ok r ∧ r.errors.isEmpty = false :=
  ⟨Outcome.run₂ (by decide +kernel), Outcome.run (by decide +kernel)⟩

/-! ## Non-vacuity -/

theorem bareWord_readable {x : Text} (h : Alone c (.identifier x)) : ReadableName c (bareWord x) := ⟨⟨x, rfl⟩, h, .nil, .inl rfl⟩

theorem bareVar_readable {x : Text} (h : Alone c (.identifier x)) : Readable c .expr (bareVar x) := by
  refine ⟨⟨rfl, rfl, ⟨⟨rfl, rfl, ⟨⟨x, rfl⟩, trivial⟩, trivial⟩, trivial⟩, rfl⟩, ?_, fun _ => by simp [bareVar, Chosen]⟩
  show Tidy c [bareWord x]
  exact tidy_one (bareWord_readable h).2

/-- A program made by hand: `for i = a, b do` … `end`. -/
example : ∃ n, Build.numericFor cfg51.feat (bareWord c!"i") (bareVar c!"a") (bareVar c!"b") = .ok n ∧
    ∃ ast, parse cfg51 (Node.node .block [.node .vec [.node .tuple [.node .stmtNumericFor [n], .node .absent []]], .node .absent []]).display = .ok (.ok ast) := by
  have alone : ∀ x ∈ [c!"i", c!"a", c!"b"], Alone cfg51 (.identifier x) := by
    intro x hx
    simp only [List.mem_cons, List.not_mem_nil, or_false] at hx
    rcases hx with rfl | rfl | rfl <;> exact ⟨(by rintro ⟨x, k, h⟩; cases h), by decide, _, rfl, rfl, rfl⟩
  obtain ⟨n, h1, h2, _⟩ := numericFor_new cfg51_reachable (bareWord_readable (alone c!"i" (by decide)))
    (bareVar_readable (alone c!"a" (by decide))) (bareVar_readable (alone c!"b" (by decide))) block_readable
  refine ⟨n, h1, ?_⟩
  have hb : Readable cfg51 .block (Node.node .block [.node .vec [.node .tuple [.node .stmtNumericFor [n], .node .absent []]], .node .absent []]) := by
    refine ⟨⟨rfl, rfl, ⟨⟨⟨⟨rfl, rfl, ⟨h2.1, trivial⟩, trivial⟩, rfl, trivial⟩, trivial⟩, rfl, trivial⟩, trivial⟩, ?_, (fun h => by cases h)⟩
    simpa using h2.2
  obtain ⟨ast, h3, _⟩ := readable_parses cfg51_reachable hb
  exact ⟨ast, h3⟩

/-- A Luau program made by hand: `type T = U`. -/
example : ∃ n, Build.typeDecl cfgLuau.feat (bareWord c!"T") (.node .tyBasic [.tok (bareWord c!"U")]) = .ok n ∧
    ∃ ast, parse cfgLuau (Node.node .block [.node .vec [.node .tuple [.node .stmtType [n], .node .absent []]], .node .absent []]).display = .ok (.ok ast) := by
  have alone : ∀ x ∈ [c!"T", c!"U"], Alone cfgLuau (.identifier x) := by
    intro x hx
    simp only [List.mem_cons, List.not_mem_nil, or_false] at hx
    rcases hx with rfl | rfl <;> exact ⟨(by rintro ⟨x, k, h⟩; cases h), by decide, _, rfl, rfl, rfl⟩
  have hU : Readable cfgLuau .type (.node .tyBasic [.tok (bareWord c!"U")]) := by
    refine ⟨⟨rfl, rfl, rfl, ⟨.inl ⟨_, rfl⟩, trivial⟩, trivial⟩, ?_, fun _ => ⟨rfl, trivial, trivial⟩⟩
    show Tidy cfgLuau [bareWord c!"U"]
    exact tidy_one (bareWord_readable (alone c!"U" (by decide))).2
  obtain ⟨n, h1, h2, _⟩ := typeDecl_new cfgLuau_reachable (bareWord_readable (alone c!"T" (by decide))) hU rfl
  refine ⟨n, h1, ?_⟩
  have hb : Readable cfgLuau .block (Node.node .block [.node .vec [.node .tuple [.node .stmtType [n], .node .absent []]], .node .absent []]) := by
    refine ⟨⟨rfl, rfl, ⟨⟨⟨⟨rfl, rfl, ⟨h2.1, trivial⟩, trivial⟩, rfl, trivial⟩, trivial⟩, rfl, trivial⟩, trivial⟩, ?_,
      fun hl => ⟨trivial, ⟨trivial, ⟨trivial, ⟨trivial, h2.3 hl, trivial⟩, ⟨trivial, trivial⟩, trivial⟩, trivial⟩, ⟨trivial, trivial⟩, trivial⟩⟩
    simpa using h2.2
  obtain ⟨ast, h3, _⟩ := readable_parses cfgLuau_reachable hb
  exact ⟨ast, h3⟩

end FM.Props
