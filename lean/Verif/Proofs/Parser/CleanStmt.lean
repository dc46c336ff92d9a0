import Verif.Proofs.Parser.CleanExpr

/-! Helper lemmas: the functions of Model/Parser/Stmt, in runs that record nothing. -/

namespace FM.Parser.Clean
open FM.Spec FM.Parser

variable {c : Cfg} {self : Rec} {α : Type}

instance : Yield StmtV := ⟨fun s => match s with | .stmt n => n.flat | .last n => n.flat⟩
@[simp] theorem yield_stmt (n : Node) : yield (StmtV.stmt n) = n.flat := rfl
@[simp] theorem yield_last (n : Node) : yield (StmtV.last n) = n.flat := rfl

/-- A statement conforms to the grammar. -/
def StmtC (c : Cfg) : StmtV → Prop
  | .stmt n => Conf c (.cat .stmt) n
  | .last n => Conf c (.cat .lastStmt) n

/-- What follows a statement does not continue it. -/
structure Ends (c : Cfg) (s : Node) (l : List TokRef) : Prop where
  paren : endsCallable s = true → NoParen l
  colons : c.luau = true → endsAsserts s = true → NoColons l

/-- The result of a function that parses statements: no parenthesis follows a statement that ends with an expression that
could be called. -/
def StQ (c : Cfg) (l : List TokRef) (r : Res StmtV) (l' : List TokRef) : Prop :=
  FQ (StmtC c) l r l' ∧ ∀ s, r = .value (.stmt s) → Ends c s l'

theorem StQ.stmt {k : Kind} {n : Node} {l l' : List TokRef} (h : Conf c (.cat .stmt) (.node k [n])) (hl : l = (Node.node k [n]).flat ++ l')
    (hn : Ends c (.node k [n]) l') : StQ c l (stmt k n) l' := ⟨⟨h, hl⟩, fun s hs => by cases hs; exact hn⟩

/-- Closes the end of a path through a function that parses statements. -/
macro "sfin" : tactic => `(tactic| (refine StQ.stmt ?_ ?_ ⟨by simp [endsCallable], by simp [endsAsserts]⟩
                                    · conf
                                    · flat))

theorem cwp_opt' {p : M (Option Node)} {P : Node → Prop} {l m : List TokRef} {Q : Option Node → List TokRef → Prop} (h : cwp p l (OQ P m))
    (h1 : ∀ v l', P v → m = v.flat ++ l' → Q (some v) l') : cwp p l Q := by
  refine cwp_mono h fun r l' hr => ?_
  cases r with
  | none => exact hr.elim
  | some v => exact h1 v l' hr.1 hr.2

theorem yield_pair {β : Type} [Yield α] [Yield β] (p : α × β) : yield p = yield p.1 ++ yield p.2 := rfl

/-! ## Functions -/

/-- A list that ends with a value. -/
structure Closed (P : α → Prop) (seps : List Symbol) (p : Punctuated α) : Prop where
  elems : PEl P seps p
  sep : Sep .nonempty p

theorem Closed.one {P : α → Prop} {seps : List Symbol} {v : α} (h : P v) : Closed P seps (.push .new (.end v)) :=
  ⟨PEl.new.push_end h, Open.new.push_end⟩

theorem Closed.last {P : α → Prop} {seps : List Symbol} {p : Punctuated α} (h : Closed P seps p) :
    ∃ q v, p = q.push (.end v) ∧ Open q ∧ PEl P seps q ∧ P v := by
  obtain ⟨ps⟩ := p
  obtain ⟨h1, h2, h3, h4⟩ := h
  cases hl : ps.getLast? with
  | none => exact absurd (List.getLast?_eq_none_iff.1 hl) (h3 rfl)
  | some x =>
    have hx := h4 (by decide) x hl
    have hps : ps = ps.dropLast ++ [x] := by
      obtain ⟨ys, rfl⟩ := List.getLast?_eq_some_iff.1 hl
      simp
    cases x with
    | punctuated v t => cases hx
    | «end» v =>
      refine ⟨⟨ps.dropLast⟩, v, ?_, h2, fun y hy => h1 y (List.dropLast_subset _ hy), (h1 (.end v) (List.mem_of_getLast? hl)).1⟩
      rw [Punctuated.push]; exact congrArg _ hps

theorem Closed.push [Yield α] {P : α → Prop} {seps : List Symbol} {p : Punctuated α} (h : Closed P seps p) {v : α} (hv : P v) {t : TokRef}
    (ht : (Term.sym seps).Is t) : ∃ q, p.pushPunctuated v t = .returned () q ∧ Closed P seps q ∧ yield q = yield p ++ t :: yield v := by
  obtain ⟨q, w, rfl, h1, h2, h3⟩ := h.last
  refine ⟨(q.push (.punctuated w t)).push (.end v), ?_, ⟨(h2.push_punct h3 ht).push_end hv, h1.push_punct.push_end⟩, by simp⟩
  simp [Punctuated.pushPunctuated, Punctuated.pop, Punctuated.push, Pair.punctuation, Pair.intoValue, Pair.intoTuple, Pair.new]

theorem functionNameNode_ok {ns : Punctuated TokRef} (h : Closed (fun t => t.isIdent = true) [.dot] ns) {o : Option (TokRef × TokRef)}
    (ho : OptP (fun p => is .colon p.1 = true ∧ p.2.isIdent = true) o) :
    Conf c (.cat .functionName) (functionNameNode ns o) ∧ (functionNameNode ns o).flat = yield ns ++ yield o := by
  have h1 : PEl (Conf c .name) [.dot] ⟨ns.pairs.map (Pair.map Node.tok)⟩ := h.elems.map fun t ht => cnf_tok.2 (Is_name.2 ht)
  have h2 : Sep .nonempty ⟨ns.pairs.map (Pair.map Node.tok)⟩ := h.sep.map
  have h3 : yield (⟨ns.pairs.map (Pair.map Node.tok)⟩ : Punctuated Node) = yield ns := yield_map fun _ _ => rfl
  unfold functionNameNode
  cases o with
  | none =>
    refine ⟨?_, by simp [h3]⟩
    conf
  | some p =>
    obtain ⟨a, b⟩ := p
    rw [optP_some] at ho
    refine ⟨?_, by simp [h3]⟩
    conf

theorem functionNameLoop_clean : ∀ (m : Nat) (l : List TokRef) (ns : Punctuated TokRef), Closed (fun t => t.isIdent = true) [.dot] ns →
    cwp (functionNameLoop m ns) l (FQ (Conf c (.cat .functionName)) (yield ns ++ l))
  | 0, _, _, _ => cwp_diverge
  | m + 1, l, ns, h => by
    have ih := functionNameLoop_clean m
    unfold functionNameLoop
    csteps
    · rename_i t ht name rest hn hd
      obtain ⟨q, h1, h2, h3⟩ := h.push (v := name) hn (Is_sym.2 hd)
      rw [h1]
      refine cwp_mono (ih _ _ h2) ?_
      intro r l' hr
      rw [h3] at hr
      simpa using hr
    · rename_i t ht name rest hn _ hd
      have h1 := functionNameNode_ok (c := c) h (o := some (t, name)) (optP_some.2 ⟨hd, hn⟩)
      exact FQ.value h1.1 (by simp [h1.2])
    · have h1 := functionNameNode_ok (c := c) h (o := none) (optP_none.2 trivial)
      exact FQ.value h1.1 (by simp [h1.2])

theorem cwp_functionName (_ : RecC c self) {l : List TokRef} {Q : Res Node → List TokRef → Prop}
    (h : ∀ v l', Conf c (.cat .functionName) v → l = v.flat ++ l' → Q (.value v) l') : cwp expectFunctionName l Q := by
  unfold expectFunctionName
  csteps
  exact cwp_found' (functionNameLoop_clean _ _ _ (.one ‹_›)) fun v l' h1 h2 => h v l' h1 (by simpa using h2)

macro_rules | `(tactic| cspec) => `(tactic| (cwp_head expectFunctionName; refine cwp_functionName (by assumption) (fun _ _ _ _ => ?_)))

theorem functionDeclaration_clean (hs : RecC c self) {as : List Node} (ha : AllP (Conf c (.cat .luauAttr)) as) {t : TokRef}
    (ht : is .kFunction t = true) (l : List TokRef) :
    cwp (expectFunctionDeclaration self c as t) l (OQ (Conf c (.cat .functionDecl)) (yield as ++ t :: l)) := by
  unfold expectFunctionDeclaration
  csteps
  cfin

theorem localFunction_clean (hs : RecC c self) {as : List Node} (ha : AllP (Conf c (.cat .luauAttr)) as) {a t : TokRef}
    (hl : is .kLocal a = true) (ht : is .kFunction t = true) (l : List TokRef) :
    cwp (expectLocalFunction self c as a t) l (OQ (Conf c (.cat .localFunction)) (yield as ++ a :: t :: l)) := by
  unfold expectLocalFunction
  csteps
  cfin

/-- `stmtOrMoved` around a function that finds something. -/
theorem cwp_stmtOrMoved {p : M (Option Node)} {k : Kind} {P : Node → Prop} {l m : List TokRef} (h : cwp p l (OQ P m))
    (hk : ∀ n, P n → Conf c (.cat .stmt) (.node k [n])) (hf : ∀ n, (Node.node k [n]).flat = n.flat)
    (he : ∀ n, endsCallable (.node k [n]) = false) (he' : ∀ n, endsAsserts (.node k [n]) = false) :
    cwp p l fun r l' => cwp (pure (stmtOrMoved k r)) l' (StQ c m) := by
  refine cwp_mono h fun r l' hr => cwp_pure ?_
  cases r with
  | none => exact hr.elim
  | some n => exact StQ.stmt (hk n hr.1) (by rw [hf]; exact hr.2) ⟨by simp [he], by simp [he']⟩

/-- The same, for kinds that need nothing but the node. -/
macro "stmt_or" h:term : tactic => `(tactic| (refine cwp_stmtOrMoved $h (fun _ _ => ?_) (fun _ => ?_) (fun _ => ?_) (fun _ => ?_); (conf); (simp); (simp [endsCallable]); (simp [endsAsserts])))

/-! ## Lists of names -/

/-- Annotations: one per name, or none at all. -/
def annotations (b : Bool) (f : Name → Option Node) (l : List (Pair Name)) : List Node := if b then l.map fun p => optNode (f p.value) else []

theorem flatNames_names {a b : Bool} {f g : Name → Option Node} (hy : ∀ n : Name, yield n = n.name :: (yield (f n) ++ yield (g n))) :
    ∀ (l : List (Pair Name)), (a = false → ∀ p ∈ l, f p.value = none) → (b = false → ∀ p ∈ l, g p.value = none) →
    flatNames ((l.map (Pair.map fun n => Node.tok n.name)).map pairNode) (annotations a f l) (annotations b g l) = yield l
  | [], _, _ => by simp [flatNames, joinNames]
  | p :: l, ha, hb => by
    have ih := flatNames_names hy l (fun h q hq => ha h q (List.mem_cons_of_mem _ hq)) (fun h q hq => hb h q (List.mem_cons_of_mem _ hq))
    have h1 : a = false → f p.value = none := fun h => ha h p (List.mem_cons_self ..)
    have h2 : b = false → g p.value = none := fun h => hb h p (List.mem_cons_self ..)
    simp only [flatNames, annotations] at ih ⊢
    rw [yield_cons, ← ih]
    cases a <;> cases b <;> cases p <;>
      simp_all [Pair.map, pairNode, Node.children, joinNames, part, Pair.value]

/-- Names, as the parser of lists returns them. -/
structure NamesC (c : Cfg) (ns : Punctuated Name) : Prop where
  elems : PEl (NameC c) [.comma] ns
  sep : Sep .nonempty ns

theorem NamesC.node {ns : Punctuated Name} (h : NamesC c ns) : Conf c (.list .name [.comma] .nonempty) (nameNodes ns) :=
  cnf_punct.2 ⟨h.elems.map fun _ hn => cnf_tok.2 (Is_name.2 hn.name), h.sep.map⟩

theorem NamesC.types {ns : Punctuated Name} (h : NamesC c ns) : Conf c (.many (.opt (.cat .typeSpec))) (typeSpecs c ns) := by
  refine cnf_vec.2 ?_
  split
  · intro n hn
    obtain ⟨p, hp, rfl⟩ := List.mem_map.1 hn
    exact cnf_optNode.2 (h.elems p hp).1.typeSpec
  · exact allP_nil.2 trivial

theorem NamesC.attrs {ns : Punctuated Name} (h : NamesC c ns) : Conf c (.many (.opt (.cat .attribute))) (attrs c ns) := by
  refine cnf_vec.2 ?_
  split
  · intro n hn
    obtain ⟨p, hp, rfl⟩ := List.mem_map.1 hn
    exact cnf_optNode.2 (h.elems p hp).1.attr
  · exact allP_nil.2 trivial

theorem NamesC.noType {ns : Punctuated Name} (h : NamesC c ns) (hf : c.feat.luau = false) : ∀ p ∈ ns.pairs, p.value.typeSpec = none :=
  fun p hp => (h.elems p hp).1.noType (Bool.eq_false_iff.2 fun h' => by rw [luau_feat h'] at hf; cases hf)

theorem NamesC.flat (hc : c.feat.Closed) {ns : Punctuated Name} (h : NamesC c ns) :
    flatNames ((ns.pairs.map (Pair.map fun n => Node.tok n.name)).map pairNode) (annotations c.feat.lua54 Name.attr ns.pairs)
      (annotations c.feat.luau Name.typeSpec ns.pairs) = yield ns := by
  refine flatNames_names yield_name ns.pairs ?_ ?_
  · intro hf p hp
    have h54 : c.lua54 = false := by simp [Cfg.lua54, Cfg.has, LuaVersion.has, Features.has, hf]
    have hcfx : c.cfxlua = false := by
      have : c.feat.cfxlua = false := Bool.eq_false_iff.2 fun h' => by rw [hc.2.2 h'] at hf; cases hf
      simp [Cfg.cfxlua, Cfg.has, LuaVersion.has, Features.has, this]
    exact (h.elems p hp).1.noAttr h54 hcfx
  · exact h.noType

theorem typeSpecs_vec {ns : Punctuated Name} (hl : c.luau = true) : typeSpecs c ns = vec (ns.pairs.map fun p => optNode p.value.typeSpec) := by
  unfold typeSpecs
  rw [if_pos (luau_feat hl)]

theorem NamesC.singles {ns : Punctuated Name} (h : NamesC c ns) (hl : c.luau = true) : singles (typeSpecs c ns) := by
  rw [typeSpecs_vec hl]
  intro s hs t ht
  obtain ⟨p, hp, rfl⟩ := List.mem_map.1 hs
  exact (h.elems p hp).1.spec t ht

theorem NamesC.one {ns : Punctuated Name} (h : NamesC c ns) (hl : c.luau = true) : OneAnnotation (typeSpecs c ns) (Parser.attrs c ns) := by
  rw [typeSpecs_vec hl]
  unfold Parser.attrs
  split
  · intro q hq
    simp only [vec, Node.children] at hq
    rw [List.zip_map', List.mem_map] at hq
    obtain ⟨p, hp, rfl⟩ := hq
    rcases (h.elems p hp).1.one with h | h
    · right; simp only [h]; rfl
    · left; simp only [h]; rfl
  · intro q hq
    simp [vec, Node.children] at hq

theorem localNode_ok (hc : c.feat.Closed) {a : TokRef} (ha : is .kLocal a = true) {ns : Punctuated Name} (h : NamesC c ns) {e : Option TokRef}
    (he : OptP (Term.sym (if c.feat.cfxlua then [.equal, .kIn] else [.equal])).Is e) {es : Punctuated Node}
    (hes : PEl (Conf c .expr) [.comma] es) (hsep : Sep .any es) (hiff : e = none ↔ es.pairs = []) :
    Conf c (.cat .localAssignment) (localNode c a ns e es) ∧ (localNode c a ns e es).flat = a :: (yield ns ++ (yield e ++ yield es)) := by
  refine ⟨?_, ?_⟩
  · have h1 := h.node
    have h2 := h.types
    have h3 := h.attrs
    unfold localNode
    conf
    refine ⟨⟨?_, ?_, ?_⟩, fun hl => ⟨h.singles hl, h.one hl⟩⟩
    · cases e with
      | none => simpa [optTok, Node.none, kindOf, punct, Node.children] using hiff
      | some e => simpa [optTok, Node.some, kindOf, punct, Node.children] using hiff
    · simp only [typeSpecs, nameNodes, punct, vec, Node.children]
      split <;> simp
    · simp only [attrs, nameNodes, punct, vec, Node.children]
      split <;> simp
  · have := h.flat hc
    unfold localNode typeSpecs nameNodes attrs punct vec
    rw [flat_localAssignment]
    rw [show (if c.feat.lua54 = true then _ else _) = annotations c.feat.lua54 Name.attr ns.pairs from rfl,
      show (if c.feat.luau = true then _ else _) = annotations c.feat.luau Name.typeSpec ns.pairs from rfl, this]
    simp [← flat_punct', punct]

theorem any_is {l : List Symbol} {t : TokRef} (h : l.any t.isSymbol = true) : (Term.sym l).Is t := by
  obtain ⟨s, hs, ht⟩ := List.any_eq_true.1 h
  exact ⟨s, hs, is_iff.1 ht⟩

theorem localAssignment_clean (hc : c.feat.Closed) (hs : RecC c self) {a : TokRef} (ha : is .kLocal a = true) (l : List TokRef) :
    cwp (expectLocalAssignment self c a) l fun r l' => OQ (Conf c (.cat .localAssignment)) (a :: l) r l' ∧
      ∀ n, r = some n → Ends c (.node .stmtLocalAssignment [n]) l' := by
  unfold expectLocalAssignment
  refine cwp_bind (cwp_res (oneOrMore_clean (fun l => parseNameWithAttributes_clean hs l) l) (fun ns l' h1 h2 => ?_) cwp_panic)
  subst h2
  have h : NamesC c ns := ⟨h1.1, h1.2⟩
  csteps
  · rename_i e hesym es l'' hes1 hes2 hcalm
    obtain ⟨h3, h4⟩ := localNode_ok hc ha h (e := some e) (optP_some.2 (any_is hesym)) hes1 (hes2.any (by decide)) (by simp [hes2.2.1 rfl])
    exact ⟨OQ.some h3 (by simp [h4]), fun n hn => by cases hn; exact ⟨hcalm.paren, hcalm.colons⟩⟩
  · obtain ⟨h3, h4⟩ := localNode_ok hc ha h (e := none) (optP_none.2 trivial) .new (.empty (by decide)) (by simp [Punctuated.new])
    exact ⟨OQ.some h3 (by simp [h4]), fun n hn => by cases hn; exact ⟨nofun, nofun⟩⟩


theorem localStmt_clean (hc : c.feat.Closed) (hs : RecC c self) {t : TokRef} {l : List TokRef} (ht : is .kLocal t = true) (hd : Hd l t) :
    cwp (localStmt self c) l (StQ c l) := by
  unfold localStmt
  csteps
  · refine cwp_mono (localAssignment_clean hc hs ht _) fun r l' hr => cwp_pure ?_
    obtain ⟨hr, hn⟩ := hr
    cases r with
    | none => exact hr.elim
    | some n =>
      have h := hr.1
      exact StQ.stmt (by conf) (by simpa using hr.2) (hn n rfl)
  · stmt_or (localFunction_clean hs (allP_nil.2 trivial) ht ‹_› _)

/-! ## Loops -/

theorem cwp_blockOrEmpty (hs : RecC c self) {name : String} {start : TokRef} {l : List TokRef} {Q : Blk × TokRef → List TokRef → Prop}
    (h : ∀ b e l', Conf c .block b.node → is .kEnd e = true → l = yield b ++ e :: l' → Q (b, e) l') : cwp (blockOrEmpty self c name start) l Q := by
  unfold blockOrEmpty
  csteps
  exact h _ _ _ ‹_› ‹_› rfl

macro_rules | `(tactic| cspec) => `(tactic| (cwp_head blockOrEmpty; refine cwp_blockOrEmpty (by assumption) (fun _ _ _ _ _ _ => ?_)))

theorem numericFor_clean (hs : RecC c self) {f : TokRef} (hf : is .kFor f = true) {n : Name} (hn : NameC c n) (ha : n.attr = none) {t : TokRef}
    {l : List TokRef} (ht : is .equal t = true) (hd : Hd l t) :
    cwp (expectNumericFor self c f n) l (OQ (Conf c (.cat .numericFor)) (f :: (yield n ++ l))) := by
  have h1 := hn.name
  have h2 := hn.typeSpec
  unfold expectNumericFor numericForRest
  csteps
  all_goals
    refine OQ.some ?_ ?_
    · conf
      exact ⟨rfl, fun _ => hn.spec⟩
    · simp [yield_name, ha, flat_numericFor]

theorem genericFor_clean (hs : RecC c self) {f : TokRef} (hf : is .kFor f = true) {ns : Punctuated Name} (h : NamesC c ns)
    (ha : ∀ p ∈ ns.pairs, p.value.attr = none) (l : List TokRef) :
    cwp (genericFor self c f ns) l (OQ (Conf c (.cat .genericFor)) (f :: (yield ns ++ l))) := by
  have h1 := h.node
  have h2 := h.types
  unfold genericFor genericForNode
  csteps
  refine OQ.some ?_ ?_
  · conf
    refine ⟨?_, h.singles⟩
    simp only [Connected, typeSpecs, nameNodes, punct, vec, Node.children]
    split <;> simp
  · have h3 := flatNames_names (a := false) (b := c.feat.luau) yield_name ns.pairs (fun _ => ha) (h.noType)
    unfold typeSpecs nameNodes punct vec
    rw [yield_node, flat_genericFor]
    rw [show (if c.feat.luau = true then _ else _) = annotations c.feat.luau Name.typeSpec ns.pairs from rfl]
    rw [show ([] : List Node) = annotations false Name.attr ns.pairs from rfl, h3, show yield ns.pairs = yield ns from rfl]
    simp [← flat_punct', punct]


theorem expectFor_clean (hs : RecC c self) {f : TokRef} (hf : is .kFor f = true) (l : List TokRef) :
    cwp (expectFor self c f) l (StQ c (f :: l)) := by
  unfold expectFor
  refine cwp_bind (cwp_res (oneOrMore_clean (fun l => parseNameWithTypes_clean hs l) l) (fun ns l' h1 h2 => ?_) ?_)
  · subst h2
    have h : NamesC c ns := ⟨h1.1.mono fun _ h => h.1, h1.2⟩
    have ha : ∀ p ∈ ns.pairs, p.value.attr = none := fun p hp => (h1.1 p hp).1.2
    obtain ⟨ps⟩ := ns
    dsimp only
    cstep; cstep
    match ps, h, ha with
    | [], h, _ => exact cwp_panic
    | [p], h, ha =>
      have hp : p = .end p.value := by
        have := h.sep.2.2 (by decide) p rfl
        cases p with
        | «end» v => rfl
        | punctuated v t => cases this
      csteps
      · have hn := h.elems p (List.mem_singleton.2 rfl)
        have hy : yield (⟨[p]⟩ : Punctuated Name) = yield p.value := by rw [hp]; simp [Pair.value]
        rw [hy]
        stmt_or (numericFor_clean hs hf hn.1 (ha p (List.mem_singleton.2 rfl)) ‹is .equal _ = true› ‹_›)
      · stmt_or (genericFor_clean hs hf h ha _)
    | p :: q :: ps, h, ha =>
      csteps
      stmt_or (genericFor_clean hs hf h ha _)
  · csteps

theorem expectRepeat_clean (hs : RecC c self) {t : TokRef} (ht : is .kRepeat t = true) (l : List TokRef) :
    cwp (expectRepeat self c t) l (StQ c (t :: l)) := by
  unfold expectRepeat
  csteps
  rename_i hcalm
  refine StQ.stmt ?_ ?_ ⟨hcalm.2.paren, hcalm.2.colons⟩
  · conf
  · flat

theorem expectWhile_clean (hs : RecC c self) {t : TokRef} (ht : is .kWhile t = true) (l : List TokRef) :
    cwp (expectWhile self c t) l (OQ (Conf c (.cat .whileBlock)) (t :: l)) := by
  unfold expectWhile
  csteps
  cfin

/-! ## `if` -/

theorem elseIfLoop_clean (hs : RecC c self) {cond : Node} : ∀ (m : Nat) (l : List TokRef) (parts : List Node), AllP (Conf c (.cat .elseIf)) parts →
    cwp (elseIfLoop self c cond m parts) l fun r l' => ∃ ps, r = .done ps ∧ AllP (Conf c (.cat .elseIf)) ps ∧ yield parts ++ l = yield ps ++ l'
  | 0, _, _, _ => cwp_diverge
  | m + 1, l, parts, h => by
    have ih := elseIfLoop_clean hs (cond := cond) m
    unfold elseIfLoop
    csteps
    · refine cwp_mono (ih _ _ (allP_append.2 ⟨h, allP_one.2 ?_⟩)) ?_
      · conf
      · rintro r l' ⟨ps, rfl, h1, h2⟩
        exact ⟨ps, rfl, h1, by rw [← h2]; simp⟩
    · exact ⟨parts, rfl, h, rfl⟩

theorem elsePart_clean (hs : RecC c self) (l : List TokRef) :
    cwp (elsePart self) l fun r l' => OptP (fun p => is .kElse p.1 = true ∧ Conf c .block p.2.node) r ∧ l = yield r ++ l' := by
  unfold elsePart
  csteps
  · exact ⟨optP_some.2 ⟨‹_›, ‹_›⟩, by simp⟩
  · exact ⟨optP_none.2 trivial, rfl⟩

theorem expectIf_clean (hs : RecC c self) {t : TokRef} (ht : is .kIf t = true) (l : List TokRef) :
    cwp (expectIf self c t) l (OQ (Conf c (.cat .ifBlock)) (t :: l)) := by
  unfold expectIf
  csteps
  refine cwp_mono (elseIfLoop_clean hs _ _ [] (allP_nil.2 trivial)) ?_
  rintro r l' ⟨ps, rfl, h1, h2⟩
  refine cwp_bind (cwp_mono (elsePart_clean hs l') ?_)
  rintro o l'' ⟨h3, h4⟩
  simp only [yield_nil, List.nil_append] at h2
  subst h4; subst h2
  csteps
  cases o with
  | none =>
    refine OQ.some ?_ ?_
    · conf
      rfl
    · flat
  | some p =>
    rw [optP_some] at h3
    obtain ⟨e, b⟩ := p
    refine OQ.some ?_ ?_
    · conf
      rfl
    · flat

/-! ## Statements that start with an expression -/

theorem ite_some {b : Bool} {x o : α} {r : Option α} (h : (if b then some x else r) = some o) : (b = true ∧ x = o) ∨ r = some o := by
  cases b
  · exact .inr h
  · exact .inl ⟨rfl, Option.some.inj h⟩

theorem compoundOp_symbol {t : TokRef} {o : CompoundOp} (h : compoundOp c t = some o) : is (compoundSymbol o) t = true := by
  unfold compoundOp at h
  repeat
    rcases ite_some h with ⟨h1, rfl⟩ | h
    · first | exact h1 | exact (Bool.and_eq_true_iff.1 h1).2
  cases h

theorem isCompound_available {t : TokRef} (h : isCompound c t = true) : c.luau = true ∨ c.cfxlua = true := by
  unfold isCompound at h
  rcases Bool.or_eq_true_iff.1 h with h | h
  · exact .inl (Bool.and_eq_true_iff.1 h).1
  · exact .inr (Bool.and_eq_true_iff.1 h).1

theorem parseCompound_clean (hs : RecC c self) {var : Node} (hv : Conf c (.cat .var) var) {t : TokRef} {l : List TokRef}
    (ht : isCompound c t = true) (hd : Hd l t) : cwp (parseCompound self c var) l (StQ c (var.flat ++ l)) := by
  have ha := isCompound_available ht
  unfold parseCompound
  csteps
  split
  · have h1 := compoundOp_symbol ‹_›
    csteps
    have hcalm := (‹NoOp c _ ∧ Calm c _ _› : NoOp c _ ∧ Calm c _ _).2
    refine StQ.stmt ?_ ?_ ⟨hcalm.paren, hcalm.colons⟩
    · conf
      simpa [available] using ha
    · flat
  · csteps

theorem varsLoop_clean (hs : RecC c self) : ∀ (m : Nat) (l : List TokRef) (vars : Punctuated Node), Closed (Conf c (.cat .var)) [.comma] vars →
    cwp (varsLoop self c m vars) l fun r l' => ∃ p, r = some p ∧ Closed (Conf c (.cat .var)) [.comma] p ∧ yield vars ++ l = yield p ++ l'
  | 0, _, _, _ => cwp_diverge
  | m + 1, l, vars, h => by
    have ih := varsLoop_clean hs m
    unfold varsLoop
    csteps
    · rename_i comma hcomma p rest hp _
      split
      · csteps
      · rename_i hlast
        have hc : lastIsCall p.2 = false := by
          unfold lastIsCall
          split
          · rename_i s hs
            cases s with
            | node k cs =>
              cases k <;> first | rfl | exact absurd hs (hlast cs)
            | tok t => rfl
          · rfl
        obtain ⟨q, h1, h2, h3⟩ := h.push (v := varNode p.1 p.2) (varNode_conf hp.1 hp.2 hc) (Is_sym.2 hcomma)
        rw [h1]
        refine cwp_mono (ih _ _ h2) ?_
        rintro r l' ⟨p', rfl, h4, h5⟩
        refine ⟨p', rfl, h4, ?_⟩
        rw [← h5, h3]
        simp [varNode_flat, yield_pair]
    · exact ⟨vars, rfl, h, rfl⟩

theorem assignment_clean (hs : RecC c self) {var : Node} (hv : Conf c (.cat .var) var) (l : List TokRef) :
    cwp (assignment self c var) l (StQ c (var.flat ++ l)) := by
  unfold assignment
  csteps
  refine cwp_mono (varsLoop_clean hs _ _ _ (.one hv)) ?_
  rintro r l' ⟨p, rfl, h1, h2⟩
  simp only [yield_push, yield_new, yield_end, yield_node, List.nil_append] at h2
  rw [h2]
  have h3 := h1.elems
  have h4 := h1.sep
  csteps
  rename_i hcalm
  refine StQ.stmt ?_ ?_ ⟨hcalm.paren, hcalm.colons⟩
  · conf
  · flat

/-! ## Types -/

theorem typeDeclaration_clean (hs : RecC c self) (hl : c.luau = true) {t : TokRef} (ht : isNamed c!"type" t = true) (l : List TokRef) :
    cwp (expectTypeDeclaration self c t) l (OQ (Conf c (.cat .typeDecl)) (t :: l)) := by
  unfold expectTypeDeclaration typeDeclarationRest
  csteps
  all_goals cfin

theorem typeFunction_clean (hs : RecC c self) {t f : TokRef} (ht : isNamed c!"type" t = true) (hf : is .kFunction f = true)
    (l : List TokRef) : cwp (expectTypeFunction self c t f) l (OQ (Conf c (.cat .typeFunction)) (t :: f :: l)) := by
  unfold expectTypeFunction
  csteps
  all_goals cfin

theorem typeStmt_clean (hs : RecC c self) (hl : c.luau = true) {t : TokRef} (ht : isNamed c!"type" t = true) (l : List TokRef) :
    cwp (typeStmt self c t) l (StQ c (t :: l)) := by
  unfold typeStmt
  csteps
  · stmt_or (typeFunction_clean hs ht ‹_› _)
  · stmt_or (typeDeclaration_clean hs hl ht _)

theorem exportStmt_clean (hs : RecC c self) (hl : c.luau = true) {t : TokRef} (ht : isNamed c!"export" t = true) (l : List TokRef) :
    cwp (exportStmt self c t) l (StQ c (t :: l)) := by
  unfold exportStmt
  csteps
  · refine cwp_opt' (typeFunction_clean hs ‹_› ‹_› _) fun v l' h1 h2 => ?_
    rw [h2]
    csteps
    sfin
  · refine cwp_opt' (typeDeclaration_clean hs hl ‹_› _) fun v l' h1 h2 => ?_
    rw [h2]
    csteps
    sfin

theorem contextual_clean (hs : RecC c self) {p : Pre} {ss : List Node} (hp : PreC c p) {t : TokRef} (l : List TokRef) :
    cwp (contextual self c p ss t) l (StQ c (yield p ++ (yield ss ++ l))) := by
  unfold contextual
  split
  · rename_i hl
    csteps
    · exact exportStmt_clean hs hl ‹_› _
    · exact typeStmt_clean hs hl ‹_› _
    · refine ⟨⟨?_, by simp; rfl⟩, nofun⟩
      show Conf c (.cat .lastStmt) _
      conf
  · csteps

theorem expressionStmt_clean (hs : RecC c self) (l : List TokRef) : cwp (expressionStmt self c) l (StQ c l) := by
  unfold expressionStmt
  csteps
  · rename_i p rest hp hcalm hc
    have h := callNode_conf hp.1 hp.2 hc
    refine StQ.stmt ?_ ?_ ⟨fun _ => hcalm, by simp [endsAsserts]⟩
    · conf
    · simp [callNode_flat, yield_pair]
  · rename_i p rest hp _ hc t hd hcomp
    have h := parseCompound_clean hs (varNode_conf hp.1 hp.2 (by simpa using hc)) hcomp hd
    simpa [varNode_flat, yield_pair] using h
  · rename_i p rest hp _ hc t hd hcomp _
    have h := assignment_clean hs (varNode_conf hp.1 hp.2 (by simpa using hc)) rest
    simpa [varNode_flat, yield_pair] using h
  · rename_i p rest hp _ hc t hd hcomp _
    simpa [yield_pair] using contextual_clean (ss := p.2) (t := t) hs hp.1 rest

/-! ## `goto`, labels and attributes -/

theorem gotoStmt_clean {t : TokRef} {l : List TokRef} (ht : is .kGoto t = true) (hd : Hd l t) : cwp (gotoStmt c) l (StQ c l) := by
  unfold gotoStmt
  csteps
  refine StQ.stmt ?_ ?_ ⟨by simp [endsCallable], by simp [endsAsserts]⟩
  · conf
    simpa [available] using ‹(c.lua52 || c.luajit) = true›
  · flat

theorem labelStmt_clean {t : TokRef} {l : List TokRef} (hv : c.lua52 = true ∨ c.luajit = true) (ht : is .twoColons t = true) (hd : Hd l t) :
    cwp (labelStmt c) l (StQ c l) := by
  unfold labelStmt
  csteps
  refine StQ.stmt ?_ ?_ ⟨by simp [endsCallable], by simp [endsAsserts]⟩
  · conf
    simpa [available] using hv
  · flat

theorem attributedStmt_clean (hs : RecC c self) (hl : c.luau = true) (l : List TokRef) : cwp (attributedStmt self c) l (StQ c l) := by
  unfold attributedStmt
  refine cwp_bind (cwp_attributes (luau_feat hl) fun v l' h1 h2 => ?_)
  subst h2
  csteps
  · stmt_or (functionDeclaration_clean hs h1 ‹_› _)
  · stmt_or (localFunction_clean hs h1 ‹_› ‹_› _)

/-! ## Statements and blocks -/

theorem doStmt_clean (hs : RecC c self) {t : TokRef} {l : List TokRef} (ht : is .kDo t = true) (hd : Hd l t) :
    cwp (doStmt self c) l (StQ c l) := by
  unfold doStmt
  csteps
  sfin

/-- The tokens that start a statement, other than `return` and `break`. -/
def startsStmt (c : Cfg) (t : TokRef) : Bool :=
  is .kLocal t || is .kFor t || is .kDo t || is .kIf t || is .kFunction t || is .kRepeat t || is .kWhile t || (is .leftParen t || t.isIdent)
    || ((c.feat.lua52 || c.feat.luajit || c.feat.cfxlua) && is .kGoto t) || ((c.lua52 || c.luajit) && is .twoColons t) || (c.luau && is .atSign t)

/-- The result of parsing a statement. -/
def SQ (c : Cfg) (l : List TokRef) (r : Res StmtV) (l' : List TokRef) : Prop :=
  match r with
  | .value v => StmtC c v ∧ l = yield v ++ l' ∧ ∀ s, v = .stmt s → Ends c s l'
  | .notFound => l' = l ∧ ∀ t, Hd l t → startsStmt c t = false
  | .moved => False

theorem SQ.of {l l' : List TokRef} {r : Res StmtV} (h : StQ c l r l') : SQ c l r l' := by
  cases r with
  | value v => exact ⟨h.1.1, h.1.2, fun s hs => h.2 s (by rw [hs])⟩
  | notFound => exact h.1.elim
  | moved => exact h.1.elim

theorem SQ.mono {p : M (Res StmtV)} {l m : List TokRef} (h : cwp p l (StQ c m)) : cwp p l (SQ c m) := cwp_mono h fun _ _ => .of

theorem SQ.orMoved {p : M (Option Node)} {k : Kind} {l m : List TokRef}
    (h : cwp p l fun r l' => cwp (pure (stmtOrMoved k r)) l' (StQ c m)) :
    cwp p l fun r l' => cwp (pure (stmtOrMoved k r)) l' (SQ c m) := cwp_mono h fun _ _ h' => cwp_mono h' fun _ _ => .of

theorem parseStmt_clean (hc : c.feat.Closed) (hs : RecC c self) (l : List TokRef) : cwp (parseStmt self c) l (SQ c l) := by
  unfold parseStmt
  cstep; cstep
  cstep
  · exact SQ.mono (localStmt_clean hc hs ‹_› ‹_›)
  cstep
  · cstep; cstep
    exact SQ.mono (expectFor_clean hs ‹_› _)
  cstep
  · exact SQ.mono (doStmt_clean hs ‹_› ‹_›)
  cstep
  · cstep; cstep; cstep
    refine SQ.orMoved ?_
    stmt_or (expectIf_clean hs ‹_› _)
  cstep
  · cstep; cstep; cstep
    refine SQ.orMoved ?_
    stmt_or (functionDeclaration_clean hs (allP_nil.2 trivial) ‹_› _)
  cstep
  · cstep; cstep
    exact SQ.mono (expectRepeat_clean hs ‹_› _)
  cstep
  · cstep; cstep; cstep
    refine SQ.orMoved ?_
    stmt_or (expectWhile_clean hs ‹_› _)
  refine cwp_ite (fun _ => ?_) (fun _ => ?_)
  · exact SQ.mono (expressionStmt_clean hs _)
  refine cwp_ite (fun h => ?_) (fun _ => ?_)
  · exact SQ.mono (gotoStmt_clean (Bool.and_eq_true_iff.1 h).2 ‹_›)
  refine cwp_ite (fun h => ?_) (fun _ => ?_)
  · exact SQ.mono (labelStmt_clean (Bool.or_eq_true_iff.1 (Bool.and_eq_true_iff.1 h).1) (Bool.and_eq_true_iff.1 h).2 ‹_›)
  refine cwp_ite (fun h => ?_) (fun _ => ?_)
  · exact SQ.mono (attributedStmt_clean hs (Bool.and_eq_true_iff.1 h).1 _)
  · refine cwp_pure ⟨rfl, fun u hu => ?_⟩
    rename_i t hd _ _ _ _ _ _ _ _ _ _ _
    cases hu.inj hd
    unfold startsStmt
    simp only [Bool.or_eq_false_iff]
    simp_all

theorem returnNode_conf {t : TokRef} (ht : is .kReturn t = true) {es : Punctuated Node} (h1 : PEl (Conf c .expr) [.comma] es) (h2 : Sep .any es) :
    Conf c (.cat .lastStmt) (returnNode t es) ∧ (returnNode t es).flat = t :: yield es := by
  unfold returnNode
  refine ⟨?_, by simp⟩
  conf

/-- A statement with its semicolon conforms to the grammar. -/
def SemiC (c : Cfg) (cat : Cat) (s : Node × Option TokRef) : Prop := Conf c (.cat cat) s.1 ∧ OptP (fun t => is .semicolon t = true) s.2

theorem SemiC.node {cat : Cat} {s : Node × Option TokRef} (h : SemiC c cat s) :
    Conf c (.pair (.cat cat) (.opt (.tok (.sym [.semicolon])))) (stmtNode s) := by
  obtain ⟨n, o⟩ := s
  have h1 := h.1
  have h2 := h.2
  unfold stmtNode
  cases o with
  | none => conf
  | some t => rw [optP_some] at h2; conf

/-- The result of parsing a last statement. -/
def EndQ (c : Cfg) (l : List TokRef) (r : Res (Node × Option TokRef)) (l' : List TokRef) : Prop :=
  match r with
  | .value v => SemiC c .lastStmt v ∧ l = yield v ++ l'
  | .notFound => l' = l ∧ ∀ t, Hd l t → is .kReturn t = false ∧ is .kBreak t = false
  | .moved => False

theorem parseLastStmt_clean (hs : RecC c self) (l : List TokRef) : cwp (parseLastStmt self) l (EndQ c l) := by
  unfold parseLastStmt
  csteps
  · obtain ⟨h1, h2⟩ := returnNode_conf (c := c) ‹_› ‹_› (Sep.any ‹_› (by decide))
    exact ⟨⟨h1, optP_some.2 ‹_›⟩, by simp [h2]⟩
  · obtain ⟨h1, h2⟩ := returnNode_conf (c := c) ‹_› ‹_› (Sep.any ‹_› (by decide))
    exact ⟨⟨h1, optP_none.2 trivial⟩, by simp [h2]⟩
  · obtain ⟨h1, h2⟩ := returnNode_conf (c := c) ‹_› .new (.empty (by decide))
    exact ⟨⟨h1, optP_some.2 ‹_›⟩, by simp [h2]⟩
  · obtain ⟨h1, h2⟩ := returnNode_conf (c := c) ‹_› .new (.empty (by decide))
    exact ⟨⟨h1, optP_none.2 trivial⟩, by simp [h2]⟩
  · rename_i t h1 h2 _ _ _
    have h3 : is .kBreak t = true := by simpa [h2] using h1
    exact ⟨⟨by conf, optP_some.2 ‹_›⟩, by simp⟩
  · rename_i t _ h1 h2 _ _ _
    have h3 : is .kBreak t = true := by simpa [h2] using h1
    exact ⟨⟨by conf, optP_none.2 trivial⟩, by simp⟩
  · refine ⟨rfl, fun u hu => ?_⟩
    rename_i t hd h
    cases hu.inj hd
    simpa using h

/-- The tokens that start a statement. -/
def starts (c : Cfg) (t : TokRef) : Bool := startsStmt c t || is .kReturn t || is .kBreak t

/-- No statement of a list is taken for a continuation of the one before it. -/
def Apart (c : Cfg) (ns : List Node) : Prop := distincts ns ∧ (c.luau = true → unasserteds ns)

/-- The statements of a block conform to the grammar. -/
structure BlkC (c : Cfg) (b : Blk) : Prop where
  stmts : AllP (SemiC c .stmt) b.stmts
  last : OptP (SemiC c .lastStmt) b.last
  apart : Apart c (b.stmts.map stmtNode)

theorem BlkC.node {b : Blk} (h : BlkC c b) : Conf c .block b.node := by
  obtain ⟨ss, l⟩ := b
  have h1 : AllP (Conf c (.pair (.cat .stmt) (.opt (.tok (.sym [.semicolon]))))) (ss.map stmtNode) := by
    intro n hn
    obtain ⟨s, hs, rfl⟩ := List.mem_map.1 hn
    exact (h.stmts s hs).node
  have h2 := h.last
  have h4 : Apart c (ss.map stmtNode) := h.apart
  unfold Blk.node
  cases l with
  | none =>
    show Conf c (.cat .block) _
    conf
    exact h4
  | some s =>
    rw [optP_some] at h2
    have h3 := h2.node
    show Conf c (.cat .block) _
    conf
    exact h4

/-- The result of parsing a block: without a last statement, it ends where no statement starts. -/
structure BQ (c : Cfg) (l : List TokRef) (b : Blk) (l' : List TokRef) : Prop where
  conf : BlkC c b
  toks : l = yield b ++ l'
  stuck : b.last = none → ∀ t, Hd l' t → starts c t = false

/-- The last statement so far is not followed by what would belong to it. -/
def Quiet (c : Cfg) (ss : List (Node × Option TokRef)) (l : List TokRef) : Prop :=
  ∀ s, ss.getLast? = some (s, none) → Ends c s l

theorem distincts_append : ∀ {ss : List Node} {a : Node}, distincts ss → (∀ s, ss.getLast? = some s → distinct s a) → distincts (ss ++ [a])
  | [], _, _, _ => trivial
  | [s], a, _, h2 => ⟨h2 s rfl, trivial⟩
  | s :: t :: ss, a, h1, h2 => ⟨h1.1, distincts_append (ss := t :: ss) h1.2 fun x hx => h2 x (by simpa using hx)⟩

theorem unasserteds_append : ∀ {ss : List Node} {a : Node}, unasserteds ss → (∀ s, ss.getLast? = some s → unasserted s a) → unasserteds (ss ++ [a])
  | [], _, _, _ => trivial
  | [s], a, _, h2 => ⟨h2 s rfl, trivial⟩
  | s :: t :: ss, a, h1, h2 => ⟨h1.1, unasserteds_append (ss := t :: ss) h1.2 fun x hx => h2 x (by simpa using hx)⟩

theorem noParen_starts {n : Node} {l : List TokRef} (h : NoParen (n.flat ++ l)) : startsParen n = false := by
  unfold startsParen
  cases hf : n.flat with
  | nil => rfl
  | cons t ts =>
    have := h t (by rw [hf]; rfl)
    rw [is_false_iff] at this
    simpa using this

theorem Quiet.apart {ss : List (Node × Option TokRef)} {s : Node × Option TokRef} {l : List TokRef} (h : Quiet c ss (yield s ++ l))
    (hd : Apart c (ss.map stmtNode)) : Apart c ((ss ++ [s]).map stmtNode) := by
  rw [List.map_append]
  have last : ∀ x, (ss.map stmtNode).getLast? = some x → distinct x (stmtNode s) ∧ (c.luau = true → unasserted x (stmtNode s)) := by
    intro x hx
    rw [List.getLast?_map] at hx
    cases hl : ss.getLast? with
    | none => simp [hl] at hx
    | some y =>
      simp only [hl, Option.map_some, Option.some.injEq] at hx
      subst hx
      obtain ⟨y, o⟩ := y
      cases o with
      | some t => simp [stmtNode, distinct, unasserted, optTok, Node.some, kindOf]
      | none =>
        refine ⟨fun _ he => ?_, fun hlu _ he => ?_⟩
        · refine noParen_starts (l := l) ?_
          rw [flat_stmtNode]
          exact (h y hl).paren he
        · refine starts_hd (l := l) fun t ht => ?_
          rw [tokenIs_is]
          rw [flat_stmtNode] at ht
          exact (h y hl).colons hlu he t ht
  exact ⟨distincts_append hd.1 fun x hx => (last x hx).1, fun hl => unasserteds_append (hd.2 hl) fun x hx => (last x hx).2 hl⟩

theorem blockEnd_clean (hs : RecC c self) {l : List TokRef} {ss : List (Node × Option TokRef)} (h : AllP (SemiC c .stmt) ss)
    (hd : Apart c (ss.map stmtNode)) (hn : ∀ t, Hd l t → startsStmt c t = false) :
    cwp (blockEnd self ss) l fun r l' => ∃ b, r = .value b ∧ BQ c (yield ss ++ l) b l' := by
  unfold blockEnd
  refine cwp_bind (cwp_mono (parseLastStmt_clean hs l) fun r l' hr => ?_)
  cases r with
  | value v => exact cwp_pure ⟨_, rfl, ⟨h, optP_some.2 hr.1, hd⟩, by simp [yield_blk, hr.2], nofun⟩
  | notFound =>
    obtain ⟨rfl, h'⟩ := hr
    exact cwp_pure ⟨_, rfl, ⟨h, optP_none.2 trivial, hd⟩, by simp [yield_blk], fun _ t ht => by simp [starts, hn t ht, h' t ht]⟩
  | moved => exact hr.elim

theorem blockLoop_clean (hc : c.feat.Closed) (hs : RecC c self) : ∀ (m : Nat) (l : List TokRef) (ss : List (Node × Option TokRef)), AllP (SemiC c .stmt) ss →
    Apart c (ss.map stmtNode) → Quiet c ss l →
    cwp (blockLoop self c m ss) l fun r l' => ∃ b, r = .value b ∧ BQ c (yield ss ++ l) b l'
  | 0, _, _, _, _, _ => cwp_diverge
  | m + 1, l, ss, h, hd, hq => by
    have ih := blockLoop_clean hc hs m
    unfold blockLoop
    refine cwp_bind (cwp_mono (parseStmt_clean hc hs l) fun r l' hr => ?_)
    match r, hr with
    | .value (.stmt s), hr =>
      obtain ⟨h1, rfl, h2⟩ := hr
      have h1 : Conf c (.cat .stmt) s := h1
      csteps
      · refine cwp_mono (ih _ _ (allP_append.2 ⟨h, allP_one.2 ⟨h1, optP_some.2 ‹_›⟩⟩) (Quiet.apart (by simpa [yield_pair] using hq) hd) ?_) ?_
        · intro x hx; simp at hx
        rintro r l' ⟨b, rfl, hb⟩
        exact ⟨b, rfl, by simpa using hb⟩
      · refine cwp_mono (ih _ _ (allP_append.2 ⟨h, allP_one.2 ⟨h1, optP_none.2 trivial⟩⟩) (Quiet.apart (by simpa [yield_pair] using hq) hd) ?_) ?_
        · intro x hx; simp at hx; subst hx; exact h2 s rfl
        rintro r l' ⟨b, rfl, hb⟩
        exact ⟨b, rfl, by simpa using hb⟩
    | .value (.last s), hr =>
      obtain ⟨h1, rfl, -⟩ := hr
      have h1 : Conf c (.cat .lastStmt) s := h1
      csteps
      · exact ⟨_, rfl, ⟨h, optP_some.2 ⟨h1, optP_some.2 ‹_›⟩, hd⟩, by simp [yield_blk], nofun⟩
      · exact ⟨_, rfl, ⟨h, optP_some.2 ⟨h1, optP_none.2 trivial⟩, hd⟩, by simp [yield_blk], nofun⟩
    | .notFound, hr =>
      obtain ⟨rfl, h'⟩ := hr
      exact blockEnd_clean hs h hd h'
    | .moved, hr => exact hr.elim

theorem parseBlock_clean' (hc : c.feat.Closed) (hs : RecC c self) (l : List TokRef) :
    cwp (parseBlock self c) l fun r l' => ∃ b, r = .value b ∧ BQ c l b l' := by
  unfold parseBlock
  csteps
  exact blockLoop_clean hc hs _ _ [] (allP_nil.2 trivial) ⟨trivial, fun _ => trivial⟩ nofun

theorem parseBlock_clean (hc : c.feat.Closed) (hs : RecC c self) (l : List TokRef) :
    cwp (parseBlock self c) l (FQ (fun b => Conf c .block b.node) l) := by
  refine cwp_mono (parseBlock_clean' hc hs l) ?_
  rintro r l' ⟨b, rfl, h⟩
  exact FQ.value h.conf.node h.toks

end FM.Parser.Clean
