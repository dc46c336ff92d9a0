import Verif.Proofs.Parser.View

/-! Helper lemmas: the statements of the grammar. -/

namespace FM.Parser.Forward
open FM.Spec FM.Parser FM.Parser.Clean

variable {c : Cfg} {α β : Type}

/-! ## Lists -/

/-- One or more elements with separators between them. -/
inductive ListF (P : α → Prop) (s : Symbol) : List (Pair α) → Prop
  | last {a : α} : P a → ListF P s [.end a]
  | cons {a : α} {u : TokRef} {x : Pair α} {l : List (Pair α)} : P a → Sym u s → ListF P s (x :: l) → ListF P s (.punctuated a u :: x :: l)

theorem listF_of {P : α → Prop} {s : Symbol} {st : Spec.Style} (hst : st ≠ .trailing) : ∀ {l : List (Pair α)}, PEl P [s] ⟨l⟩ → Sep st (⟨l⟩ : Punctuated α) → l = [] ∨ ListF P s l
  | [], _, _ => .inl rfl
  | [x], h1, h2 => by
    have h3 := h2.2.2 hst x rfl
    cases x with
    | punctuated v t => cases h3
    | «end» v => exact .inr (.last (h1 _ (.head _)).1)
  | x :: y :: l, h1, h2 => by
    have h4 := h2.1 x (.head _)
    cases x with
    | «end» v => exact absurd rfl h4
    | punctuated v t =>
      rcases listF_of hst (l := y :: l) (fun z hz => h1 z (.tail _ hz)) ⟨fun z hz => h2.1 z (.tail _ hz), nofun, fun hs z hz => h2.2.2 hs z (by simpa using hz)⟩ with h | h
      · cases h
      · exact .inr (.cons (h1 _ (.head _)).1 (is_iff.1 (Is_sym.1 ((h1 _ (.head _)).2 t rfl))) h)

theorem listF_nonempty {P : α → Prop} {s : Symbol} {p : Punctuated α} (h1 : PEl P [s] p) (h2 : Sep .nonempty p) : ListF P s p.pairs := by
  rcases listF_of (by decide) h1 h2 with h | h
  · exact absurd h (h2.2.1 rfl)
  · exact h

theorem listF_any {P : α → Prop} {s : Symbol} {p : Punctuated α} (h1 : PEl P [s] p) (h2 : Sep .any p) : p = .new ∨ ListF P s p.pairs := by
  rcases listF_of (by decide) h1 h2 with h | h
  · obtain ⟨l⟩ := p; cases h; exact .inl rfl
  · exact .inr h

theorem ListF.imp {P Q : α → Prop} {s : Symbol} (h : ∀ a, P a → Q a) {l : List (Pair α)} (hl : ListF P s l) : ListF Q s l := by
  induction hl with
  | last ha => exact .last (h _ ha)
  | cons ha hu _ ih => exact .cons (h _ ha) hu ih

theorem ListF.ne {P : α → Prop} {s : Symbol} {l : List (Pair α)} (hl : ListF P s l) : l ≠ [] := by cases hl <;> simp

/-! ## Names with attributes -/

/-- An attribute of the grammar. -/
def AttrF (c : Cfg) (n : Node) : Prop := (c.lua54 || c.cfxlua) = true ∧
  ∃ a b x, n = .node .attribute [span a b, .tok x] ∧ Sym a .lessThan ∧ Sym b .greaterThan ∧ Nam x

/-- A type specifier of a name. -/
def SpecS (c : Cfg) (n : Node) : Prop := c.luau = true ∧ ∃ t ty, n = .node .typeSpec [.tok t, ty] ∧ Sym t .colon ∧ Fits c (.cat .typeInfo) ty ∧ single ty = true

/-- A name of the grammar, without attribute. -/
def NameP (c : Cfg) (n : Name) : Prop := Nam n.name ∧ n.attr = none ∧ ∀ m, n.typeSpec = some m → SpecS c m

/-- A name of the grammar. -/
def NameF (c : Cfg) (n : Name) : Prop := Nam n.name ∧ (∀ m, n.attr = some m → AttrF c m ∧ n.typeSpec = none) ∧ ∀ m, n.typeSpec = some m → SpecS c m

/-- Names with their attributes and type specifiers. -/
def zipNames : List (Pair Node) → List (Option Node) → List (Option Node) → List (Pair Name)
  | [], _, _ => []
  | p :: ps, as, ts => p.map (fun n => ⟨(n.flat.head?).getD interpolatedEnd, as.head?.join, ts.head?.join⟩) :: zipNames ps as.tail ts.tail

/-- The attribute and the type specifier of a name. -/
def Entry (as ts : List (Option Node)) (a s : Option Node) : Prop := (a, s) ∈ as.zip ts ∨ a = none ∧ (s = none ∨ s ∈ ts) ∨ s = none ∧ a ∈ as

theorem entry_head (as ts : List (Option Node)) : Entry as ts as.head?.join ts.head?.join := by
  cases as with
  | nil =>
    cases ts with
    | nil => exact .inr (.inl ⟨rfl, .inl rfl⟩)
    | cons s ts => exact .inr (.inl ⟨rfl, .inr (.head _)⟩)
  | cons a as =>
    cases ts with
    | nil => exact .inr (.inr ⟨rfl, .head _⟩)
    | cons s ts => exact .inl (.head _)

theorem entry_tail {as ts : List (Option Node)} {a s : Option Node} (h : Entry as.tail ts.tail a s) : Entry as ts a s := by
  rcases h with h | ⟨h, h'⟩ | ⟨h, h'⟩
  · cases as with
    | nil => cases h
    | cons x as =>
      cases ts with
      | nil => simp at h
      | cons y ts => exact .inl (.tail _ h)
  · exact .inr (.inl ⟨h, h'.imp id List.mem_of_mem_tail⟩)
  · exact .inr (.inr ⟨h, List.mem_of_mem_tail h'⟩)

theorem zip_names {P : Name → Prop} : ∀ {ps : List (Pair Node)}, ListF (Fits c .name) .comma ps → ∀ as ts : List (Option Node),
    (∀ t a s, Nam t → Entry as ts a s → P ⟨t, a, s⟩) → ListF P .comma (zipNames ps as ts) := by
  intro ps h
  induction h with
  | last ha =>
    intro as ts has
    obtain ⟨t, x, rfl, h⟩ := fits_name ha
    exact .last (has t _ _ ⟨x, h⟩ (entry_head as ts))
  | cons ha hu hl ih =>
    intro as ts has
    obtain ⟨t, x, rfl, h⟩ := fits_name ha
    exact .cons (has t _ _ ⟨x, h⟩ (entry_head as ts)) hu (ih as.tail ts.tail fun t a s ht he => has t a s ht (entry_tail he))

theorem zip_nameNodes {ps : List (Pair Node)} (h : ListF (Fits c .name) .comma ps) : ∀ as ts, nameNodes ⟨zipNames ps as ts⟩ = punct ⟨ps⟩ := by
  suffices ∀ as ts, (zipNames ps as ts).map (Pair.map fun n => Node.tok n.name) = ps by intro as ts; unfold nameNodes; rw [this]
  induction h with
  | last ha => obtain ⟨t, x, rfl, h⟩ := fits_name ha; intro as ts; simp [zipNames, Pair.map]
  | cons ha hu hl ih =>
    obtain ⟨t, x, rfl, h⟩ := fits_name ha
    intro as ts
    rw [zipNames, List.map_cons, ih]
    simp [Pair.map]

theorem map_value {f : α → β} (p : Pair α) : (p.map f).value = f p.value := by cases p <;> rfl

theorem zip_type : ∀ (ps : List (Pair Node)) (as ts : List (Option Node)), ts.length = ps.length →
    (zipNames ps as ts).map (fun p => optNode p.value.typeSpec) = ts.map optNode
  | [], _, [], _ => rfl
  | [], _, _ :: _, h => by cases h
  | _ :: _, _, [], h => by cases h
  | _ :: ps, as, s :: ts, h => by
    have := zip_type ps as.tail ts (by simpa using h)
    simp [zipNames, this, map_value]

theorem zip_typeSpecs {ps : List (Pair Node)} {as ts : List (Option Node)} (h : ts.length = if c.feat.luau then ps.length else 0) :
    typeSpecs c ⟨zipNames ps as ts⟩ = vec (ts.map optNode) := by
  unfold typeSpecs
  split
  · rename_i h1; rw [if_pos h1] at h; rw [zip_type _ _ _ h]
  · rename_i h1
    rw [if_neg h1] at h
    cases ts with
    | nil => rfl
    | cons => cases h

theorem zip_attr : ∀ (ps : List (Pair Node)) (as ts : List (Option Node)), as.length = ps.length →
    (zipNames ps as ts).map (fun p => optNode p.value.attr) = as.map optNode
  | [], [], _, _ => rfl
  | [], _ :: _, _, h => by cases h
  | _ :: _, [], _, h => by cases h
  | _ :: ps, a :: as, ts, h => by
    have := zip_attr ps as ts.tail (by simpa using h)
    simp [zipNames, this, map_value]

theorem zip_attrs {ps : List (Pair Node)} {as ts : List (Option Node)} (h : as.length = if c.feat.lua54 then ps.length else 0) :
    attrs c ⟨zipNames ps as ts⟩ = vec (as.map optNode) := by
  unfold attrs
  split
  · rename_i h1; rw [if_pos h1] at h; rw [zip_attr _ _ _ h]
  · rename_i h1
    rw [if_neg h1] at h
    cases as with
    | nil => rfl
    | cons => cases h

/-- The type specifiers of a list of names. -/
theorem view_singles : ∀ {ns : List Node}, (∀ n ∈ ns, SpecF c n) → (c.luau = true → ∀ n ∈ ns, ∀ t, specType n = some t → single t = true) →
    ∃ ts : List (Option Node), ns = ts.map optNode ∧ ∀ n, some n ∈ ts → SpecS c n
  | [], _, _ => ⟨[], rfl, nofun⟩
  | n :: ns, h, h' => by
    obtain ⟨ts, rfl, h1⟩ := view_singles (ns := ns) (fun n hn => h n (.tail _ hn)) fun hl n hn => h' hl n (.tail _ hn)
    rcases h n (.head _) with rfl | ⟨t, ty, rfl, hl, ht, hty⟩
    · refine ⟨none :: ts, rfl, fun n hn => ?_⟩
      cases hn with
      | tail _ hn => exact h1 n hn
    · refine ⟨some (.node .typeSpec [.tok t, ty]) :: ts, rfl, fun n hn => ?_⟩
      cases hn with
      | tail _ hn => exact h1 n hn
      | head => exact ⟨hl, t, ty, rfl, ht, hty, h' hl _ (.head _) ty rfl⟩

theorem view_attrs : ∀ {ns : List Node}, (∀ n ∈ ns, Fits c (.opt (.cat .attribute)) n) → ∃ as : List (Option Node), ns = as.map optNode ∧ ∀ n, some n ∈ as → AttrF c n
  | [], _ => ⟨[], rfl, nofun⟩
  | n :: ns, h => by
    obtain ⟨as, rfl, h1⟩ := view_attrs fun n hn => h n (.tail _ hn)
    rcases fits_opt (h n (.head _)) with rfl | ⟨m, rfl, hm⟩
    · refine ⟨none :: as, rfl, fun n hn => ?_⟩
      cases hn with
      | tail _ hn => exact h1 n hn
    · refine ⟨some m :: as, rfl, fun n hn => ?_⟩
      cases hn with
      | tail _ hn => exact h1 n hn
      | head =>
        clear h h1
        kinds hm
        obtain ⟨s, x, rfl, h1, h2⟩ := fits_two hf
        obtain ⟨a, b, rfl, h3, h4⟩ := fits_span h1
        obtain ⟨x, y, rfl, h5⟩ := fits_name h2
        exact ⟨ha, a, b, x, rfl, h3, h4, y, h5⟩

theorem mem_zip_swap {a : α} {b : β} : ∀ {as : List α} {bs : List β}, (a, b) ∈ as.zip bs → (b, a) ∈ bs.zip as
  | [], _, h => by simp at h
  | _ :: _, [], h => by simp at h
  | _ :: as, _ :: bs, h => by
    rw [List.zip_cons_cons] at h ⊢
    cases h with
    | head => exact .head _
    | tail _ h => exact .tail _ (mem_zip_swap h)

/-! ## Statements -/

/-- The token is the name `x`. -/
abbrev Wrd (t : TokRef) (x : Text) : Prop := t.token.type = .identifier x

theorem fits_word {x : Text} {n : Node} (h : Fits c (.tok (.word [x])) n) : ∃ t, n = .tok t ∧ Wrd t x := by
  obtain ⟨t, rfl, y, h1, h2⟩ := fits_tok h
  obtain rfl := List.mem_singleton.1 h1
  exact ⟨t, rfl, h2⟩

/-- The `elseif` parts of the grammar. -/
def ElseIfF (c : Cfg) (n : Node) : Prop := ∃ a e t b, n = .node .elseIf [.tok a, e, .tok t, Blk.node b] ∧ Sym a .kElseIf ∧ Fits c .expr e ∧ Sym t .kThen ∧ BlkF c b

inductive StmtF (c : Cfg) : Node → Prop
  | assignment {vs es : Punctuated Node} {t : TokRef} : ListF (Fits c (.cat .var)) .comma vs.pairs → Sym t .equal → ListF (Fits c .expr) .comma es.pairs →
    StmtF c (.node .stmtAssignment [.node .assignment [punct vs, .tok t, punct es]])
  | doBlock {a e : TokRef} {b : Blk} : Sym a .kDo → BlkF c b → Sym e .kEnd → StmtF c (.node .stmtDo [.node .doBlock [.tok a, b.node, .tok e]])
  | call {f : Node} : Fits c (.cat .functionCall) f → StmtF c (.node .stmtCall [f])
  | function {as : List Node} {t : TokRef} {n b : Node} : (∀ a ∈ as, LuauAttrV c a) → Sym t .kFunction → Fits c (.cat .functionName) n → Fits c (.cat .funcBody) b →
    StmtF c (.node .stmtFunction [.node .functionDecl [vec as, .tok t, n, b]])
  | genericFor {f i d e : TokRef} {ns : Punctuated Name} {es : Punctuated Node} {b : Blk} : Sym f .kFor → ListF (NameP c) .comma ns.pairs → Sym i .kIn →
    ListF (Fits c .expr) .comma es.pairs → Sym d .kDo → BlkF c b → Sym e .kEnd → StmtF c (.node .stmtGenericFor [genericForNode c f ns i es d b e])
  | if_ {i t e : TokRef} {x : Node} {b : Blk} {es : List Node} {o : Option (TokRef × Blk)} : Sym i .kIf → Fits c .expr x → Sym t .kThen → BlkF c b →
    (∀ n ∈ es, ElseIfF c n) → (∀ p, o = some p → Sym p.1 .kElse ∧ BlkF c p.2) → Sym e .kEnd →
    StmtF c (.node .stmtIf [.node .ifBlock [.tok i, x, .tok t, b.node, optVec es, optTok (o.map (·.1)), optNode (o.map fun p => p.2.node), .tok e]])
  | local_ {l : TokRef} {ns : Punctuated Name} : Sym l .kLocal → ListF (NameF c) .comma ns.pairs → StmtF c (.node .stmtLocalAssignment [localNode c l ns none .new])
  | localValues {l u : TokRef} {ns : Punctuated Name} {es : Punctuated Node} : Sym l .kLocal → ListF (NameF c) .comma ns.pairs →
    Sym u .equal ∨ c.feat.cfxlua = true ∧ Sym u .kIn → ListF (Fits c .expr) .comma es.pairs → StmtF c (.node .stmtLocalAssignment [localNode c l ns (some u) es])
  | localFunction {as : List Node} {l t n : TokRef} {b : Node} : (∀ a ∈ as, LuauAttrV c a) → Sym l .kLocal → Sym t .kFunction → Nam n → Fits c (.cat .funcBody) b →
    StmtF c (.node .stmtLocalFunction [.node .localFunction [vec as, .tok l, .tok t, .tok n, b]])
  | numericFor {f i q m d e : TokRef} {x y : Node} {o : Option (TokRef × Node)} {b : Blk} {s : Option Node} : Sym f .kFor → Nam i → (∀ m, s = some m → SpecS c m) → Sym q .equal → Fits c .expr x → Sym m .comma →
    Fits c .expr y → (∀ p, o = some p → Sym p.1 .comma ∧ Fits c .expr p.2) → Sym d .kDo → BlkF c b → Sym e .kEnd →
    StmtF c (.node .stmtNumericFor [.node .numericFor [.tok f, .tok i, .tok q, x, .tok m, y, optTok (o.map (·.1)), optNode (o.map (·.2)), .tok d, b.node, .tok e, optNode s]])
  | repeat_ {r u : TokRef} {b : Blk} {x : Node} : Sym r .kRepeat → BlkF c b → Sym u .kUntil → Fits c .expr x →
    StmtF c (.node .stmtRepeat [.node .repeatBlock [.tok r, b.node, .tok u, x]])
  | while_ {w d e : TokRef} {b : Blk} {x : Node} : Sym w .kWhile → Fits c .expr x → Sym d .kDo → BlkF c b → Sym e .kEnd →
    StmtF c (.node .stmtWhile [.node .whileBlock [.tok w, x, .tok d, b.node, .tok e]])
  | compound {v x : Node} {o : CompoundOp} {t : TokRef} : Fits c (.cat .var) v → ordinary c (.compoundOp o) → Sym t (compoundSymbol o) → Fits c .expr x →
    StmtF c (.node .stmtCompound [.node .compoundAssignment [v, .node (.compoundOp o) [.tok t], x]])
  | goto {t n : TokRef} : (c.lua52 || c.luajit) = true → Sym t .kGoto → Nam n → StmtF c (.node .stmtGoto [.node .gotoStmt [.tok t, .tok n]])
  | label {a n b : TokRef} : (c.lua52 || c.luajit) = true → Sym a .twoColons → Nam n → Sym b .twoColons →
    StmtF c (.node .stmtLabel [.node .label [.tok a, .tok n, .tok b]])
  | type {n : Node} : c.luau = true → Fits c (.cat .typeDecl) n → StmtF c (.node .stmtType [n])
  | exportedType {t : TokRef} {n : Node} : c.luau = true → Wrd t c!"export" → Fits c (.cat .typeDecl) n →
    StmtF c (.node .stmtExportedType [.node .exportedTypeDecl [.tok t, n]])
  | typeFunction {n : Node} : c.luau = true → Fits c (.cat .typeFunction) n → StmtF c (.node .stmtTypeFunction [n])
  | exportedTypeFunction {t : TokRef} {n : Node} : c.luau = true → Wrd t c!"export" → Fits c (.cat .typeFunction) n →
    StmtF c (.node .stmtExportedTypeFunction [.node .exportedTypeFunction [.tok t, n]])

theorem view_assignment {n : Node} (h : Fits c (.cat .assignment) n) : StmtF c (.node .stmtAssignment [n]) := by
  kinds h
  obtain ⟨x, y, z, rfl, h1, h2, h3⟩ := fits_three hf
  obtain ⟨vs, rfl, h4, h5⟩ := fits_list h1
  obtain ⟨t, rfl, h6⟩ := fits_sym h2
  obtain ⟨es, rfl, h7, h8⟩ := fits_list h3
  exact .assignment (listF_nonempty h4 h5) h6 (listF_nonempty h7 h8)

theorem view_do {n : Node} (h : Fits c (.cat .doBlock) n) : StmtF c (.node .stmtDo [n]) := by
  kinds h
  obtain ⟨x, y, z, rfl, h1, h2, h3⟩ := fits_three hf
  obtain ⟨a, rfl, h4⟩ := fits_sym h1
  obtain ⟨b, rfl, h5⟩ := view_block h2
  obtain ⟨e, rfl, h6⟩ := fits_sym h3
  exact .doBlock h4 h5 h6

theorem view_function {n : Node} (h : Fits c (.cat .functionDecl) n) : StmtF c (.node .stmtFunction [n]) := by
  kinds h
  obtain ⟨x, y, z, w, rfl, h1, h2, h3, h4⟩ := fits_four hf
  obtain ⟨as, rfl, h6⟩ := view_luauAttrs h1
  obtain ⟨a, rfl, h5⟩ := fits_sym h2
  exact .function h6 h5 h3 h4

theorem view_genericFor {n : Node} (h : Fits c (.cat .genericFor) n) : StmtF c (.node .stmtGenericFor [n]) := by
  kinds h
  obtain ⟨x1, cs, rfl, h1, hf⟩ := fitsAll_cons hf
  obtain ⟨x2, cs, rfl, h2, hf⟩ := fitsAll_cons hf
  obtain ⟨x3, cs, rfl, h3, hf⟩ := fitsAll_cons hf
  obtain ⟨x4, cs, rfl, h4, hf⟩ := fitsAll_cons hf
  obtain ⟨x5, x6, x7, x8, rfl, h5, h6, h7, h8⟩ := fits_four hf
  obtain ⟨f, rfl, g1⟩ := fits_sym h1
  obtain ⟨⟨ns⟩, rfl, g2, g3⟩ := fits_list h2
  obtain ⟨i, rfl, g4⟩ := fits_sym h3
  obtain ⟨es, rfl, g5, g6⟩ := fits_list h4
  obtain ⟨d, rfl, g7⟩ := fits_sym h5
  obtain ⟨b, rfl, g8⟩ := view_block h6
  obtain ⟨e, rfl, g9⟩ := fits_sym h7
  obtain ⟨ts, rfl, g10⟩ := view_specs h8
  obtain ⟨ts, rfl, g11⟩ := view_singles g10 fun hl => ho.2 hl
  have hm := hc
  simp only [Connected, vec, Node.children_node, punct, List.length_map] at hm
  have g := listF_nonempty g2 g3
  have hn : ListF (NameP c) .comma (zipNames ns [] ts) := by
    refine zip_names g [] ts fun t a s ht he => ⟨ht, ?_, ?_⟩
    · rcases he with he | ⟨h, -⟩ | ⟨-, h⟩
      · simp at he
      · exact h
      · cases h
    · rintro m rfl
      rcases he with he | ⟨-, h | h⟩ | ⟨h, -⟩
      · simp at he
      · cases h
      · exact g11 m h
      · cases h
  have := StmtF.genericFor g1 hn g4 (listF_nonempty g5 g6) g7 g8 g9
  unfold genericForNode at this
  rw [zip_nameNodes g, zip_typeSpecs hm] at this
  exact this

theorem view_elseIf {n : Node} (h : Fits c (.cat .elseIf) n) : ElseIfF c n := by
  kinds h
  obtain ⟨x, y, z, w, rfl, h1, h2, h3, h4⟩ := fits_four hf
  obtain ⟨a, rfl, h5⟩ := fits_sym h1
  obtain ⟨t, rfl, h6⟩ := fits_sym h3
  obtain ⟨b, rfl, h7⟩ := view_block h4
  exact ⟨a, y, t, b, rfl, h5, h2, h6, h7⟩

theorem view_if {n : Node} (h : Fits c (.cat .ifBlock) n) : StmtF c (.node .stmtIf [n]) := by
  kinds h
  obtain ⟨x1, cs, rfl, h1, hf⟩ := fitsAll_cons hf
  obtain ⟨x2, cs, rfl, h2, hf⟩ := fitsAll_cons hf
  obtain ⟨x3, cs, rfl, h3, hf⟩ := fitsAll_cons hf
  obtain ⟨x4, cs, rfl, h4, hf⟩ := fitsAll_cons hf
  obtain ⟨x5, x6, x7, x8, rfl, h5, h6, h7, h8⟩ := fits_four hf
  obtain ⟨i, rfl, g1⟩ := fits_sym h1
  obtain ⟨t, rfl, g2⟩ := fits_sym h3
  obtain ⟨b, rfl, g3⟩ := view_block h4
  obtain ⟨es, rfl, g4⟩ := fits_optVec h5
  obtain ⟨e, rfl, g5⟩ := fits_sym h8
  have he : ∀ n ∈ es, ElseIfF c n := fun n hn => view_elseIf (g4 n hn)
  simp only [Connected] at hc
  rcases fits_opt h6 with rfl | ⟨x6, rfl, g6⟩
  · rcases fits_opt h7 with rfl | ⟨x7, rfl, g7⟩
    · exact .if_ (o := none) g1 h2 g2 g3 he nofun g5
    · cases hc
  · rcases fits_opt h7 with rfl | ⟨x7, rfl, g7⟩
    · cases hc
    · obtain ⟨a, rfl, g8⟩ := fits_sym g6
      obtain ⟨b', rfl, g9⟩ := view_block g7
      exact .if_ (o := some (a, b')) g1 h2 g2 g3 he (by rintro _ ⟨⟩; exact ⟨g8, g9⟩) g5

theorem view_local {n : Node} (h : Fits c (.cat .localAssignment) n) : StmtF c (.node .stmtLocalAssignment [n]) := by
  kinds h
  obtain ⟨x1, cs, rfl, h1, hf⟩ := fitsAll_cons hf
  obtain ⟨x2, cs, rfl, h2, hf⟩ := fitsAll_cons hf
  obtain ⟨x3, x4, x5, x6, rfl, h3, h4, h5, h6⟩ := fits_four hf
  obtain ⟨l, rfl, g1⟩ := fits_sym h1
  obtain ⟨ts, rfl, g10⟩ := view_specs h2
  obtain ⟨ts, rfl, g11⟩ := view_singles g10 fun hl => (ho.2 hl).1
  obtain ⟨⟨ns⟩, rfl, g2, g3⟩ := fits_list h3
  obtain ⟨as, rfl, g4⟩ := fits_many h4
  obtain ⟨as, rfl, g5⟩ := view_attrs g4
  obtain ⟨o, rfl, g6⟩ := fits_optTok h5
  obtain ⟨es, rfl, g7, g8⟩ := fits_list h6
  have hm := hc
  simp only [Connected, vec, Node.children_node, punct, List.length_map] at hm
  have g := listF_nonempty g2 g3
  have hn : ListF (NameF c) .comma (zipNames ns as ts) := by
    refine zip_names g as ts fun t a s ht he => ⟨ht, ?_, ?_⟩
    · rintro m rfl
      refine ⟨g5 m ?_, ?_⟩
      · rcases he with he | ⟨h, -⟩ | ⟨-, he⟩
        · exact (List.of_mem_zip he).1
        · cases h
        · exact he
      · rcases he with he | ⟨h, -⟩ | ⟨he, -⟩
        · cases s with
          | none => rfl
          | some s =>
            have hl := (g11 s (List.of_mem_zip he).2).1
            have h1 := (ho.2 hl).2 (Node.some s, Node.some m) (by
              rw [vec, vec, Node.children_node, Node.children_node, List.zip_map]
              exact List.mem_map.2 ⟨(some s, some m), mem_zip_swap he, rfl⟩)
            rcases h1 with h1 | h1 <;> cases h1
        · cases h
        · exact he
    · rintro m rfl
      rcases he with he | ⟨-, h | he⟩ | ⟨h, -⟩
      · exact g11 m (List.of_mem_zip he).2
      · cases h
      · exact g11 m he
      · cases h
  have key : ∀ o es, localNode c l ⟨zipNames ns as ts⟩ o es = .node .localAssignment [.tok l, vec (ts.map optNode), punct ⟨ns⟩, vec (as.map optNode), optTok o, punct es] := by
    intro o es
    rw [localNode, zip_nameNodes g, zip_typeSpecs hm.2.1, zip_attrs hm.2.2]
  rw [← key]
  cases o with
  | none =>
    have : es.pairs = [] := by simpa using hm.1.1 rfl
    obtain ⟨_⟩ := es
    cases this
    exact .local_ g1 hn
  | some u =>
    rcases listF_any g7 g8 with rfl | g9
    · have := hm.1.2 rfl; cases this
    · refine .localValues g1 hn ?_ g9
      obtain ⟨s, hs, h3⟩ := g6 u rfl
      cases hcfx : c.feat.cfxlua <;> simp [hcfx] at hs
      · exact .inl (hs ▸ h3)
      · rcases hs with rfl | rfl
        · exact .inl h3
        · exact .inr ⟨rfl, h3⟩

theorem view_localFunction {n : Node} (h : Fits c (.cat .localFunction) n) : StmtF c (.node .stmtLocalFunction [n]) := by
  kinds h
  obtain ⟨x1, cs, rfl, h1, hf⟩ := fitsAll_cons hf
  obtain ⟨x3, x4, x5, x6, rfl, h3, h4, h5, h6⟩ := fits_four hf
  obtain ⟨as, rfl, g4⟩ := view_luauAttrs h1
  obtain ⟨l, rfl, g1⟩ := fits_sym h3
  obtain ⟨t, rfl, g2⟩ := fits_sym h4
  obtain ⟨n, x, rfl, g3⟩ := fits_name h5
  exact .localFunction g4 g1 g2 ⟨x, g3⟩ h6

theorem view_numericFor {n : Node} (h : Fits c (.cat .numericFor) n) : StmtF c (.node .stmtNumericFor [n]) := by
  kinds h
  obtain ⟨x1, cs, rfl, h1, hf⟩ := fitsAll_cons hf
  obtain ⟨x2, cs, rfl, h2, hf⟩ := fitsAll_cons hf
  obtain ⟨x3, cs, rfl, h3, hf⟩ := fitsAll_cons hf
  obtain ⟨x4, cs, rfl, h4, hf⟩ := fitsAll_cons hf
  obtain ⟨x5, cs, rfl, h5, hf⟩ := fitsAll_cons hf
  obtain ⟨x6, cs, rfl, h6, hf⟩ := fitsAll_cons hf
  obtain ⟨x7, cs, rfl, h7, hf⟩ := fitsAll_cons hf
  obtain ⟨x8, cs, rfl, h8, hf⟩ := fitsAll_cons hf
  obtain ⟨x9, x10, x11, x12, rfl, h9, h10, h11, h12⟩ := fits_four hf
  obtain ⟨f, rfl, g1⟩ := fits_sym h1
  obtain ⟨i, x, rfl, g2⟩ := fits_name h2
  obtain ⟨q, rfl, g3⟩ := fits_sym h3
  obtain ⟨m, rfl, g4⟩ := fits_sym h5
  obtain ⟨d, rfl, g5⟩ := fits_sym h9
  obtain ⟨b, rfl, g6⟩ := view_block h10
  obtain ⟨e, rfl, g7⟩ := fits_sym h11
  obtain ⟨s, rfl, g11⟩ : ∃ s : Option Node, x12 = optNode s ∧ ∀ m, s = some m → SpecS c m := by
    rcases view_spec h12 with rfl | ⟨t, ty, rfl, hl, ht, hty⟩
    · exact ⟨none, rfl, nofun⟩
    · exact ⟨some (.node .typeSpec [.tok t, ty]), rfl, by rintro _ ⟨⟩; exact ⟨hl, t, ty, rfl, ht, hty, ho.2 hl ty rfl⟩⟩
  simp only [Connected] at hc
  rcases fits_opt h7 with rfl | ⟨x7, rfl, g8⟩
  · rcases fits_opt h8 with rfl | ⟨x8, rfl, g9⟩
    · exact .numericFor (o := none) g1 ⟨x, g2⟩ g11 g3 h4 g4 h6 nofun g5 g6 g7
    · cases hc
  · rcases fits_opt h8 with rfl | ⟨x8, rfl, g9⟩
    · cases hc
    · obtain ⟨a, rfl, g10⟩ := fits_sym g8
      exact .numericFor (o := some (a, x8)) g1 ⟨x, g2⟩ g11 g3 h4 g4 h6 (by rintro _ ⟨⟩; exact ⟨g10, g9⟩) g5 g6 g7

theorem view_repeat {n : Node} (h : Fits c (.cat .repeatBlock) n) : StmtF c (.node .stmtRepeat [n]) := by
  kinds h
  obtain ⟨x3, x4, x5, x6, rfl, h3, h4, h5, h6⟩ := fits_four hf
  obtain ⟨r, rfl, g1⟩ := fits_sym h3
  obtain ⟨b, rfl, g2⟩ := view_block h4
  obtain ⟨u, rfl, g3⟩ := fits_sym h5
  exact .repeat_ g1 g2 g3 h6

theorem view_while {n : Node} (h : Fits c (.cat .whileBlock) n) : StmtF c (.node .stmtWhile [n]) := by
  kinds h
  obtain ⟨x1, cs, rfl, h1, hf⟩ := fitsAll_cons hf
  obtain ⟨x3, x4, x5, x6, rfl, h3, h4, h5, h6⟩ := fits_four hf
  obtain ⟨w, rfl, g1⟩ := fits_sym h1
  obtain ⟨d, rfl, g2⟩ := fits_sym h4
  obtain ⟨b, rfl, g3⟩ := view_block h5
  obtain ⟨e, rfl, g4⟩ := fits_sym h6
  exact .while_ g1 h3 g2 g3 g4

theorem view_compound {n : Node} (h : Fits c (.cat .compoundAssignment) n) : StmtF c (.node .stmtCompound [n]) := by
  kinds h
  obtain ⟨x, y, z, rfl, h1, h2, h3⟩ := fits_three hf
  clear ho ha hf hc hk h
  kinds h2
  obtain ⟨n, rfl, h4⟩ := fits_one hf
  obtain ⟨t, rfl, h5⟩ := fits_sym h4
  exact .compound h1 ho.1 h5 h3

theorem view_stmt {n : Node} (h : Fits c (.cat .stmt) n) : StmtF c n := by
  kinds h <;> (obtain ⟨n, rfl, h1⟩ := fits_one hf) <;> clear hf hc ho h
  case stmtAssignment => exact view_assignment h1
  case stmtDo => exact view_do h1
  case stmtCall => exact .call h1
  case stmtFunction => exact view_function h1
  case stmtGenericFor => exact view_genericFor h1
  case stmtIf => exact view_if h1
  case stmtLocalAssignment => exact view_local h1
  case stmtLocalFunction => exact view_localFunction h1
  case stmtNumericFor => exact view_numericFor h1
  case stmtRepeat => exact view_repeat h1
  case stmtWhile => exact view_while h1
  case stmtCompound => exact view_compound h1
  case stmtExportedType =>
    have hl : c.luau = true := by simpa [available, luauKinds] using ha
    clear ha hk
    kinds h1
    obtain ⟨x, y, rfl, h2, h3⟩ := fits_two hf
    obtain ⟨t, rfl, h4⟩ := fits_word h2
    exact .exportedType hl h4 h3
  case stmtType => exact .type (by simpa [available, luauKinds] using ha) h1
  case stmtExportedTypeFunction =>
    have hl : c.luau = true := by simpa [available, luauKinds] using ha
    clear ha hk
    kinds h1
    obtain ⟨x, y, rfl, h2, h3⟩ := fits_two hf
    obtain ⟨t, rfl, h4⟩ := fits_word h2
    exact .exportedTypeFunction hl h4 h3
  case stmtTypeFunction => exact .typeFunction (by simpa [available, luauKinds] using ha) h1
  case stmtGoto =>
    have hv := ha
    clear ha hk
    kinds h1
    obtain ⟨x, y, rfl, h2, h3⟩ := fits_two hf
    obtain ⟨t, rfl, h4⟩ := fits_sym h2
    obtain ⟨n, x, rfl, h5⟩ := fits_name h3
    exact .goto hv h4 ⟨x, h5⟩
  case stmtLabel =>
    have hv := ha
    clear ha hk
    kinds h1
    obtain ⟨x, y, z, rfl, h2, h3, h4⟩ := fits_three hf
    obtain ⟨a, rfl, h5⟩ := fits_sym h2
    obtain ⟨n, x, rfl, h6⟩ := fits_name h3
    obtain ⟨b, rfl, h7⟩ := fits_sym h4
    exact .label hv h5 ⟨x, h6⟩ h7

inductive LastF (c : Cfg) : Node → Prop
  | continue_ {t : TokRef} : c.luau = true → Wrd t c!"continue" → LastF c (.node .lastContinue [.tok t])
  | break_ {t : TokRef} : Sym t .kBreak → LastF c (.node .lastBreak [.tok t])
  | return_ {t : TokRef} {es : Punctuated Node} : Sym t .kReturn → es = .new ∨ ListF (Fits c .expr) .comma es.pairs → LastF c (returnNode t es)

theorem view_last {n : Node} (h : Fits c (.cat .lastStmt) n) : LastF c n := by
  kinds h
  case lastBreak => obtain ⟨n, rfl, h1⟩ := fits_one hf; obtain ⟨t, rfl, h2⟩ := fits_sym h1; exact .break_ h2
  case lastContinue =>
    obtain ⟨n, rfl, h1⟩ := fits_one hf
    obtain ⟨t, rfl, h2⟩ := fits_word h1
    exact .continue_ (by simpa [available, luauKinds] using ha) h2
  case lastReturn =>
    obtain ⟨n, rfl, h1⟩ := fits_one hf
    clear ho ha hf hc hk h
    kinds h1
    obtain ⟨x, y, rfl, h2, h3⟩ := fits_two hf
    obtain ⟨t, rfl, h4⟩ := fits_sym h2
    obtain ⟨es, rfl, h5, h6⟩ := fits_list h3
    exact .return_ h4 (listF_any h5 h6)

end FM.Parser.Forward
