import Verif.Proofs.Parser.Fits

/-! Helper lemmas: the alternatives of the grammar. -/

namespace FM.Parser.Forward
open FM.Spec FM.Parser FM.Parser.Clean

variable {c : Cfg} {α β : Type}

/-- Token types, to shorten statements. -/
abbrev Sym (t : TokRef) (s : Symbol) : Prop := t.token.type = .symbol s
abbrev Nam (t : TokRef) : Prop := ∃ x, t.token.type = .identifier x

set_option hygiene false in
/-- The constructors of a category. -/
macro "kinds " h:ident : tactic => `(tactic| (
  obtain ⟨k, cs, rfl, hk, ha, hf, hc, ho⟩ := fits_cat $h
  cases k <;> first | (cases hk; done) | skip))

/-! ## Expressions -/

/-- An attribute of a function. -/
def LuauAttrV (c : Cfg) (n : Node) : Prop := c.luau = true ∧ ∃ a x, n = .node .luauAttr [.tok a, .tok x] ∧ Sym a .atSign ∧ Nam x

theorem view_luauAttr {n : Node} (h : Fits c (.cat .luauAttr) n) : LuauAttrV c n := by
  kinds h
  obtain ⟨a, x, rfl, h1, h2⟩ := fits_two hf
  obtain ⟨a, rfl, h3⟩ := fits_sym h1
  obtain ⟨x, y, rfl, h4⟩ := fits_name h2
  exact ⟨ho.1, a, x, rfl, h3, y, h4⟩

theorem view_luauAttrs {n : Node} (h : Fits c (.many (.cat .luauAttr)) n) : ∃ as, n = vec as ∧ ∀ a ∈ as, LuauAttrV c a := by
  obtain ⟨ns, rfl, hns⟩ := fits_many h
  exact ⟨ns, rfl, fun a ha => view_luauAttr (hns a ha)⟩

inductive ExprV (c : Cfg) : Node → Prop
  | binary {l r : Node} {o : BinOp} {t : TokRef} : Fits c .expr l → Sym t o.symbol → c.hasAny o.gates = true → Fits c .expr r →
    (∀ e ∈ rightEdge l, keepsLeft o.symbol.text e) → (∀ p ∈ leftEdge r, keepsRight o.symbol.text p) →
    (c.luau = true → ∀ ty, lastType l = some ty → o.symbol.text ≠ c!"|" ∧ o.symbol.text ≠ c!"&" ∧ (o.symbol.text = c!"<" → endsName ty = false)) →
    ExprV c (.node .exprBinary [l, .node (.binOp o) [.tok t], r])
  | parens {a b : TokRef} {e : Node} : Sym a .leftParen → Sym b .rightParen → Fits c .expr e → ExprV c (.node .exprParens [span a b, e])
  | unary {o : UnOp} {t : TokRef} {e : Node} : Sym t (unarySymbol o) → available c (.unOp o) = true → Fits c .expr e →
    (∀ p ∈ leftEdge e, unaryRow < row p) → ExprV c (.node .exprUnary [.node (.unOp o) [.tok t], e])
  | function {as : List Node} {t : TokRef} {b : Node} : (∀ a ∈ as, LuauAttrV c a) → Sym t .kFunction → Fits c (.cat .funcBody) b →
    ExprV c (.node .exprFunction [.node .anonFunc [vec as, .tok t, b]])
  | call {f : Node} : Fits c (.cat .functionCall) f → ExprV c (.node .exprCall [f])
  | table {n : Node} : Fits c (.cat .tableCtor) n → ExprV c (.node .exprTable [n])
  | number {t : TokRef} : t.token.type.kind = .number → ExprV c (.node .exprNumber [.tok t])
  | string {t : TokRef} : t.token.type.kind = .stringLiteral → ExprV c (.node .exprString [.tok t])
  | symbol {t : TokRef} {s : Symbol} : s ∈ [Symbol.kTrue, .kFalse, .kNil, .ellipsis] → Sym t s → ExprV c (.node .exprSymbol [.tok t])
  | var {v : Node} : Fits c (.cat .var) v → parenthesised v = false → ExprV c (.node .exprVar [v])
  | if_ {a th el : TokRef} {e₁ e₂ e₃ : Node} {es : List Node} : c.luau = true → Sym a .kIf → Fits c .expr e₁ → Sym th .kThen → Fits c .expr e₂ →
    (∀ x ∈ es, Fits c (.cat .elseIfExpr) x) → Sym el .kElse → Fits c .expr e₃ →
    ExprV c (.node .exprIf [.node .ifExpr [.tok a, e₁, .tok th, e₂, optVec es, .tok el, e₃]])
  | interp {ss : List Node} {t : TokRef} : c.luau = true → (∀ x ∈ ss, Fits c (.cat .interpSegment) x) →
    Connected c .interpString [vec ss, .tok t] → ExprV c (.node .exprInterp [.node .interpString [vec ss, .tok t]])
  | assertion {e ty : Node} {t : TokRef} : c.luau = true → Fits c .expr e → Sym t .twoColons → Fits c (.cat .typeInfo) ty → single ty = true →
    isOne [.exprBinary, .exprAssertion] e = false → innerAsserts e = false → ExprV c (.node .exprAssertion [e, .node .typeAssertion [.tok t, ty]])

theorem opText_binOp {o : BinOp} {t : TokRef} (h : Sym t o.symbol) : opText (.node (.binOp o) [.tok t]) = o.symbol.text := by
  simp [opText, display_symbol h]

theorem view_binOp {n : Node} (h : Fits c (.cat .binOp) n) : ∃ o t, n = .node (.binOp o) [.tok t] ∧ Sym t o.symbol ∧ c.hasAny o.gates = true := by
  kinds h
  obtain ⟨n, rfl, h1⟩ := fits_one hf
  obtain ⟨t, rfl, h2⟩ := fits_sym h1
  exact ⟨_, t, rfl, h2, ha⟩

theorem view_unOp {n : Node} (h : Fits c (.cat .unOp) n) : ∃ o t, n = .node (.unOp o) [.tok t] ∧ Sym t (unarySymbol o) ∧ available c (.unOp o) = true := by
  kinds h
  obtain ⟨n, rfl, h1⟩ := fits_one hf
  obtain ⟨t, rfl, h2⟩ := fits_sym h1
  exact ⟨_, t, rfl, h2, ha⟩

theorem view_expr {n : Node} (h : Fits c .expr n) : ExprV c n := by
  kinds h
  case exprBinary =>
    obtain ⟨l, o, r, rfl, h1, h2, h3⟩ := fits_three hf
    obtain ⟨o, t, rfl, h4, h5⟩ := view_binOp h2
    simp only [Connected, opText_binOp h4] at hc
    have hx := ho.2
    simp only [Chosen, opText_binOp h4] at hx
    exact .binary h1 h4 h5 h3 hc.1 hc.2 hx
  case exprParens =>
    obtain ⟨s, e, rfl, h1, h2⟩ := fits_two hf
    obtain ⟨a, b, rfl, h3, h4⟩ := fits_span h1
    exact .parens h3 h4 h2
  case exprUnary =>
    obtain ⟨o, e, rfl, h1, h2⟩ := fits_two hf
    obtain ⟨o, t, rfl, h4, h5⟩ := view_unOp h1
    exact .unary h4 h5 h2 hc
  case exprFunction =>
    obtain ⟨n, rfl, h1⟩ := fits_one hf
    clear ho ha hf hc hk h
    kinds h1
    obtain ⟨a, t, b, rfl, h2, h3, h4⟩ := fits_three hf
    obtain ⟨t, rfl, h5⟩ := fits_sym h3
    obtain ⟨as, rfl, h6⟩ := view_luauAttrs h2
    exact .function h6 h5 h4
  case exprCall => obtain ⟨n, rfl, h1⟩ := fits_one hf; exact .call h1
  case exprIf =>
    have hl : c.luau = true := by simpa using ha
    obtain ⟨n, rfl, h1⟩ := fits_one hf
    clear ho ha hf hc hk h
    kinds h1
    obtain ⟨a, cs, rfl, h2, hf⟩ := fitsAll_cons hf
    obtain ⟨e₁, cs, rfl, h3, hf⟩ := fitsAll_cons hf
    obtain ⟨th, cs, rfl, h4, hf⟩ := fitsAll_cons hf
    obtain ⟨e₂, es, el, e₃, rfl, h5, h6, h7, h8⟩ := fits_four hf
    obtain ⟨a, rfl, h9⟩ := fits_sym h2
    obtain ⟨th, rfl, h10⟩ := fits_sym h4
    obtain ⟨el, rfl, h11⟩ := fits_sym h7
    obtain ⟨es, rfl, h12⟩ := fits_optVec h6
    exact .if_ hl h9 h3 h10 h5 h12 h11 h8
  case exprInterp =>
    have hl : c.luau = true := by simpa using ha
    obtain ⟨n, rfl, h1⟩ := fits_one hf
    clear ho ha hf hc hk h
    kinds h1
    obtain ⟨ss, t, rfl, h2, h3⟩ := fits_two hf
    obtain ⟨ss, rfl, h4⟩ := fits_many h2
    obtain ⟨t, rfl, h5⟩ := fits_tok h3
    exact .interp hl h4 hc
  case exprTable => obtain ⟨n, rfl, h1⟩ := fits_one hf; exact .table h1
  case exprNumber => obtain ⟨n, rfl, h1⟩ := fits_one hf; obtain ⟨t, rfl, h2⟩ := fits_tok h1; exact .number h2
  case exprString => obtain ⟨n, rfl, h1⟩ := fits_one hf; obtain ⟨t, rfl, h2⟩ := fits_tok h1; exact .string h2
  case exprSymbol => obtain ⟨n, rfl, h1⟩ := fits_one hf; obtain ⟨t, rfl, s, h2, h3⟩ := fits_tok h1; exact .symbol h2 h3
  case exprAssertion =>
    have hl : c.luau = true := by simpa using ha
    obtain ⟨e, n, rfl, h1, h2⟩ := fits_two hf
    have hx := ho.2 hl
    clear ho ha hf hc hk h
    kinds h2
    obtain ⟨t, ty, rfl, h3, h4⟩ := fits_two hf
    obtain ⟨t, rfl, h5⟩ := fits_sym h3
    exact .assertion hl h1 h5 (fits_type h4).1 (ho.2 hl) hx.1 hx.2
  case exprVar => obtain ⟨n, rfl, h1⟩ := fits_one hf; exact .var h1 hc

/-! ## Prefixes and suffixes -/

/-- A prefix of the grammar. -/
def PreF (c : Cfg) : Pre → Prop
  | .name t => Nam t
  | .expr e => ∃ a b e', e = .node .exprParens [span a b, e'] ∧ Sym a .leftParen ∧ Sym b .rightParen ∧ Fits c .expr e'

theorem view_prefix {n : Node} (h : Fits c (.cat .prefix) n) : ∃ p, n = Pre.node p ∧ PreF c p := by
  kinds h
  case prefixExpr =>
    obtain ⟨e, rfl, h1⟩ := fits_one hf
    have h2 := view_expr h1
    cases h2 <;> first | (cases hc; done) | skip
    rename_i a b e h3 h4 h5
    exact ⟨.expr _, rfl, a, b, e, rfl, h3, h4, h5⟩
  case prefixName =>
    obtain ⟨e, rfl, h1⟩ := fits_one hf
    obtain ⟨t, x, rfl, h2⟩ := fits_name h1
    exact ⟨.name t, rfl, x, h2⟩

theorem view_call {n : Node} (h : Fits c (.cat .functionCall) n) : ∃ p ss, n = callNode p ss ∧ PreF c p ∧
    (∀ s ∈ ss, Fits c (.cat .suffix) s) ∧ lastIsCall ss = true := by
  kinds h
  obtain ⟨p, ss, rfl, h1, h2⟩ := fits_two hf
  obtain ⟨p, rfl, h3⟩ := view_prefix h1
  obtain ⟨ss, rfl, h4⟩ := fits_many h2
  exact ⟨p, ss, rfl, h3, h4, lastIsCall_iff.2 hc⟩

theorem view_var {n : Node} (h : Fits c (.cat .var) n) : ∃ p ss, n = varNode p ss ∧ PreF c p ∧
    (∀ s ∈ ss, Fits c (.cat .suffix) s) ∧ lastIsCall ss = false := by
  kinds h
  case varExpression =>
    obtain ⟨n, rfl, h1⟩ := fits_one hf
    clear ho ha hf hc hk h
    kinds h1
    obtain ⟨p, ss, rfl, h1, h2⟩ := fits_two hf
    obtain ⟨p, rfl, h3⟩ := view_prefix h1
    obtain ⟨ss, rfl, h4⟩ := fits_many h2
    refine ⟨p, ss, ?_, h3, h4, Bool.eq_false_iff.2 fun h => hc.1 (lastIsCall_iff.1 h)⟩
    unfold varNode
    split
    · cases hc.2 rfl
    · rfl
  case varName =>
    obtain ⟨n, rfl, h1⟩ := fits_one hf
    obtain ⟨t, x, rfl, h2⟩ := fits_name h1
    exact ⟨.name t, [], rfl, ⟨x, h2⟩, nofun, rfl⟩

inductive ArgsV (c : Cfg) : Node → Prop
  | parens {a b : TokRef} {es : Punctuated Node} : Sym a .leftParen → Sym b .rightParen → PEl (Fits c .expr) [.comma] es → Sep .any es →
    ArgsV c (.node .argsParens [span a b, punct es])
  | string {t : TokRef} : t.token.type.kind = .stringLiteral → ArgsV c (.node .argsString [.tok t])
  | table {n : Node} : Fits c (.cat .tableCtor) n → ArgsV c (.node .argsTable [n])

theorem view_args {n : Node} (h : Fits c (.cat .args) n) : ArgsV c n := by
  kinds h
  case argsParens =>
    obtain ⟨s, es, rfl, h1, h2⟩ := fits_two hf
    obtain ⟨a, b, rfl, h3, h4⟩ := fits_span h1
    obtain ⟨es, rfl, h5, h6⟩ := fits_list h2
    exact .parens h3 h4 h5 h6
  case argsString => obtain ⟨n, rfl, h1⟩ := fits_one hf; obtain ⟨t, rfl, h2⟩ := fits_tok h1; exact .string h2
  case argsTable => obtain ⟨n, rfl, h1⟩ := fits_one hf; exact .table h1

inductive SuffixV (c : Cfg) : Node → Prop
  | dot {d n : TokRef} : Sym d .dot ∨ c.feat.cfxlua = true ∧ Sym d .questionMarkDot → Nam n →
    SuffixV c (.node .suffixIndex [.node .indexDot [.tok d, .tok n]])
  | brackets {a b : TokRef} {e : Node} : Sym a .leftBracket → Sym b .rightBracket → Fits c .expr e →
    SuffixV c (.node .suffixIndex [.node .indexBrackets [span a b, e]])
  | call {n : Node} : ArgsV c n → SuffixV c (.node .suffixCall [.node .callAnonymous [n]])
  | method {t x : TokRef} {i : Option Node} {n : Node} : Sym t .colon → Nam x → (∀ m, i = some m → Fits c (.cat .typeInst) m) → ArgsV c n →
    SuffixV c (methodNode t x i n)
  | inst {n : Node} : Fits c (.cat .typeInst) n → SuffixV c (.node .suffixTypeInst [n])

theorem view_suffix {n : Node} (h : Fits c (.cat .suffix) n) : SuffixV c n := by
  kinds h
  case suffixCall =>
    obtain ⟨n, rfl, h1⟩ := fits_one hf
    clear ho ha hf hc hk h
    kinds h1
    case callAnonymous => obtain ⟨n, rfl, h2⟩ := fits_one hf; exact .call (view_args h2)
    case callMethod =>
      obtain ⟨n, rfl, h2⟩ := fits_one hf
      clear ho ha hf hc hk h1
      kinds h2
      obtain ⟨t, x, i, n, rfl, h3, h4, h5, h6⟩ := fits_four hf
      obtain ⟨t, rfl, h7⟩ := fits_sym h3
      obtain ⟨x, y, rfl, h8⟩ := fits_name h4
      rcases fits_opt h5 with rfl | ⟨m, rfl, h9⟩
      · exact .method (i := none) h7 ⟨y, h8⟩ nofun (view_args h6)
      · exact .method (i := some m) h7 ⟨y, h8⟩ (by rintro _ ⟨⟩; exact h9) (view_args h6)
  case suffixIndex =>
    obtain ⟨n, rfl, h1⟩ := fits_one hf
    clear ho ha hf hc hk h
    kinds h1
    case indexBrackets =>
      obtain ⟨s, e, rfl, h1, h2⟩ := fits_two hf
      obtain ⟨a, b, rfl, h3, h4⟩ := fits_span h1
      exact .brackets h3 h4 h2
    case indexDot =>
      obtain ⟨d, n, rfl, h1, h2⟩ := fits_two hf
      obtain ⟨d, rfl, s, hs, h3⟩ := fits_tok h1
      obtain ⟨n, x, rfl, h4⟩ := fits_name h2
      refine .dot ?_ ⟨x, h4⟩
      cases hcfx : c.feat.cfxlua <;> simp [hcfx] at hs
      · exact .inl (hs ▸ h3)
      · rcases hs with rfl | rfl
        · exact .inl h3
        · exact .inr ⟨rfl, h3⟩
  case suffixTypeInst => obtain ⟨n, rfl, h1⟩ := fits_one hf; exact .inst h1

/-! ## Tables -/

theorem view_table {n : Node} (h : Fits c (.cat .tableCtor) n) : ∃ a b fs, n = .node .tableCtor [span a b, punct fs] ∧ Sym a .leftBrace ∧
    Sym b .rightBrace ∧ PEl (Fits c (.cat .field)) [.comma, .semicolon] fs ∧ Sep .trailing fs := by
  kinds h
  obtain ⟨s, fs, rfl, h1, h2⟩ := fits_two hf
  obtain ⟨a, b, rfl, h3, h4⟩ := fits_span h1
  obtain ⟨fs, rfl, h5, h6⟩ := fits_list h2
  exact ⟨a, b, fs, rfl, h3, h4, h5, h6⟩

inductive FieldV (c : Cfg) : Node → Prop
  | exprKey {a b t : TokRef} {k e : Node} : Sym a .leftBracket → Sym b .rightBracket → Fits c .expr k → Sym t .equal → Fits c .expr e →
    FieldV c (.node .fieldExprKey [span a b, k, .tok t, e])
  | nameKey {n t : TokRef} {e : Node} : Nam n → Sym t .equal → Fits c .expr e → FieldV c (.node .fieldNameKey [.tok n, .tok t, e])
  | set {d n : TokRef} : c.feat.cfxlua = true → Sym d .dot → Nam n → FieldV c (.node .fieldSet [.tok d, .tok n])
  | noKey {e : Node} : Fits c .expr e → FieldV c (.node .fieldNoKey [e])

theorem view_field {n : Node} (h : Fits c (.cat .field) n) : FieldV c n := by
  kinds h
  case fieldExprKey =>
    obtain ⟨s, k, t, e, rfl, h1, h2, h3, h4⟩ := fits_four hf
    obtain ⟨a, b, rfl, h5, h6⟩ := fits_span h1
    obtain ⟨t, rfl, h7⟩ := fits_sym h3
    exact .exprKey h5 h6 h2 h7 h4
  case fieldNameKey =>
    obtain ⟨n, t, e, rfl, h1, h2, h3⟩ := fits_three hf
    obtain ⟨n, x, rfl, h4⟩ := fits_name h1
    obtain ⟨t, rfl, h5⟩ := fits_sym h2
    exact .nameKey ⟨x, h4⟩ h5 h3
  case fieldSet =>
    obtain ⟨d, n, rfl, h1, h2⟩ := fits_two hf
    obtain ⟨d, rfl, h3⟩ := fits_sym h1
    obtain ⟨n, x, rfl, h4⟩ := fits_name h2
    exact .set ha h3 ⟨x, h4⟩
  case fieldNoKey => obtain ⟨n, rfl, h1⟩ := fits_one hf; exact .noKey h1

/-! ## Blocks -/

/-- A statement or last statement and its semicolon. -/
def SemiF (c : Cfg) (a : Cat) (s : Node × Option TokRef) : Prop := Fits c (.cat a) s.1 ∧ ∀ t, s.2 = some t → Sym t .semicolon

/-- A block of the grammar. -/
structure BlkF (c : Cfg) (b : Blk) : Prop where
  stmts : ∀ s ∈ b.stmts, SemiF c .stmt s
  last : ∀ s, b.last = some s → SemiF c .lastStmt s
  distincts : distincts (b.stmts.map stmtNode)
  asserts : c.luau = true → unasserteds (b.stmts.map stmtNode)

theorem view_semi {a : Cat} {n : Node} (h : Fits c (.pair (.cat a) (.opt (.sym .semicolon))) n) : ∃ s, n = stmtNode s ∧ SemiF c a s := by
  obtain ⟨x, y, rfl, h1, h2⟩ := fits_pair h
  obtain ⟨o, rfl, h3⟩ := fits_optTok h2
  exact ⟨(x, o), rfl, h1, fun t ht => is_iff.1 (Is_sym.1 (h3 t ht))⟩

theorem view_semis {a : Cat} : ∀ {ns : List Node}, (∀ n ∈ ns, Fits c (.pair (.cat a) (.opt (.sym .semicolon))) n) →
    ∃ ss : List (Node × Option TokRef), ns = ss.map stmtNode ∧ ∀ s ∈ ss, SemiF c a s
  | [], _ => ⟨[], rfl, nofun⟩
  | n :: ns, h => by
    obtain ⟨s, rfl, h1⟩ := view_semi (h n (.head _))
    obtain ⟨ss, rfl, h2⟩ := view_semis fun n hn => h n (.tail _ hn)
    refine ⟨s :: ss, rfl, fun x hx => ?_⟩
    rcases List.mem_cons.1 hx with rfl | hx
    · exact h1
    · exact h2 x hx

theorem view_block {n : Node} (h : Fits c .block n) : ∃ b : Blk, n = b.node ∧ BlkF c b := by
  kinds h
  obtain ⟨x, y, rfl, h1, h2⟩ := fits_two hf
  obtain ⟨ns, rfl, h3⟩ := fits_many h1
  obtain ⟨ss, rfl, h4⟩ := view_semis h3
  rcases fits_opt h2 with rfl | ⟨m, rfl, h5⟩
  · exact ⟨⟨ss, none⟩, rfl, h4, nofun, hc, ho.2⟩
  · obtain ⟨s, rfl, h6⟩ := view_semi h5
    exact ⟨⟨ss, some s⟩, rfl, h4, by rintro _ ⟨⟩; exact h6, hc, ho.2⟩

/-! ## Functions -/

/-- The parameters: names, then possibly `...`. -/
inductive ParamsF : List (Pair Node) → Prop
  | nil : ParamsF []
  | ellipsis {t : TokRef} : Sym t .ellipsis → ParamsF [.end (.node .paramEllipsis [.tok t])]
  | last {t : TokRef} : Nam t → ParamsF [.end (.node .paramName [.tok t])]
  | cons {t u : TokRef} {p : Pair Node} {ps : List (Pair Node)} : Nam t → Sym u .comma → ParamsF (p :: ps) →
    ParamsF (.punctuated (.node .paramName [.tok t]) u :: p :: ps)

theorem view_param {n : Node} (h : Fits c (.cat .param) n) : ∃ t, n = .node .paramEllipsis [.tok t] ∧ Sym t .ellipsis ∨
    n = .node .paramName [.tok t] ∧ Nam t := by
  kinds h
  case paramEllipsis => obtain ⟨n, rfl, h1⟩ := fits_one hf; obtain ⟨t, rfl, h2⟩ := fits_sym h1; exact ⟨t, .inl ⟨rfl, h2⟩⟩
  case paramName => obtain ⟨n, rfl, h1⟩ := fits_one hf; obtain ⟨t, x, rfl, h2⟩ := fits_name h1; exact ⟨t, .inr ⟨rfl, x, h2⟩⟩

theorem view_params : ∀ {ps : List (Pair Node)}, PEl (Fits c (.cat .param)) [.comma] ⟨ps⟩ → Sep .any (⟨ps⟩ : Punctuated Node) →
    (∀ p ∈ (ps.map pairNode).dropLast, namedParam p = true) → ParamsF ps
  | [], _, _, _ => .nil
  | [x], h1, h2, _ => by
    have h3 := h2.2.2 (by decide) x rfl
    cases x with
    | punctuated v t => cases h3
    | «end» v =>
      obtain ⟨t, ⟨rfl, h⟩ | ⟨rfl, h⟩⟩ := view_param (h1 _ (.head _)).1
      · exact .ellipsis h
      · exact .last h
  | x :: y :: ps, h1, h2, h3 => by
    have h4 := h2.1 x (.head _)
    cases x with
    | «end» v => exact absurd rfl h4
    | punctuated v t =>
      have h5 := h3 (pairNode (.punctuated v t)) (.head _)
      obtain ⟨u, ⟨rfl, h⟩ | ⟨rfl, h⟩⟩ := view_param (h1 _ (.head _)).1
      · cases h5
      · refine .cons h (is_iff.1 (Is_sym.1 ((h1 _ (.head _)).2 t rfl))) (view_params (fun z hz => h1 z (.tail _ hz)) ⟨fun z hz => h2.1 z (.tail _ hz), nofun, fun hs z hz => ?_⟩ fun z hz => h3 z (.tail _ hz))
        exact h2.2.2 hs z (by simpa using hz)

/-- An optional type specifier. -/
def SpecF (c : Cfg) (n : Node) : Prop := n = .none ∨ ∃ t ty, n = .some (.node .typeSpec [.tok t, ty]) ∧ c.luau = true ∧ Sym t .colon ∧ Fits c (.cat .typeInfo) ty

theorem view_spec {n : Node} (h : Fits c (.opt (.cat .typeSpec)) n) : SpecF c n := by
  rcases fits_opt h with rfl | ⟨m, rfl, hm⟩
  · exact .inl rfl
  · kinds hm
    obtain ⟨t, ty, rfl, h1, h2⟩ := fits_two hf
    obtain ⟨t, rfl, h3⟩ := fits_sym h1
    exact .inr ⟨t, ty, rfl, by simpa using ha, h3, h2⟩

theorem view_specs {n : Node} (h : Fits c (.many (.opt (.cat .typeSpec))) n) : ∃ ts, n = vec ts ∧ ∀ x ∈ ts, SpecF c x := by
  obtain ⟨ns, rfl, hns⟩ := fits_many h
  exact ⟨ns, rfl, fun x hx => view_spec (hns x hx)⟩

theorem SpecF.none (hl : c.luau = false) {n : Node} (h : SpecF c n) : n = .none := by
  rcases h with rfl | ⟨t, ty, rfl, h1, -⟩
  · rfl
  · rw [hl] at h1; cases h1

/-- The number of types listed for the parameters. -/
def typeCount (c : Cfg) (ps : List (Pair Node)) : Nat :=
  if c.luau then ps.length else if c.feat.luau then (ps.filter fun x => kindOf x.value == some .paramName).length else 0

/-- The body of a function. -/
structure BodyF (c : Cfg) (g : Node) (a b : TokRef) (ps : List (Pair Node)) (ts : List Node) (r : Node) (blk : Blk) (e : TokRef) : Prop where
  generics : Fits c (.opt (.cat .genericDecl)) g
  noDefault : c.luau = true → ∀ p ∈ genericParams g, hasDefault p = false
  open_ : Sym a .leftParen
  close : Sym b .rightParen
  params : ParamsF ps
  types : ∀ x ∈ ts, SpecF c x
  count : ts.length = typeCount c ps
  packs : c.luau = true → ∀ p ∈ (ps.map pairNode).zip ts, ∀ t, specType p.2 = some t →
        single t = true ∨ namedParam p.1 = false ∧ isOne [.tyGenericPack] t = true
  result : SpecF c r
  led : c.luau = true → ∀ t, specType r = some t → led t = false
  block : BlkF c blk
  end_ : Sym e .kEnd

theorem view_body {n : Node} (h : Fits c (.cat .funcBody) n) : ∃ g a b ps ts r blk e,
    n = .node .funcBody [g, span a b, punct ⟨ps⟩, vec ts, r, Blk.node blk, .tok e] ∧ BodyF c g a b ps ts r blk e := by
  kinds h
  obtain ⟨g, cs, rfl, h1, hf⟩ := fitsAll_cons hf
  obtain ⟨s, cs, rfl, h2, hf⟩ := fitsAll_cons hf
  obtain ⟨ps, cs, rfl, h3, hf⟩ := fitsAll_cons hf
  obtain ⟨ts, r, blk, e, rfl, h4, h5, h6, h7⟩ := fits_four hf
  obtain ⟨ts, rfl, h14⟩ := view_specs h4
  obtain ⟨a, b, rfl, h8, h9⟩ := fits_span h2
  obtain ⟨⟨ps⟩, rfl, h10, h11⟩ := fits_list h3
  obtain ⟨blk, rfl, h12⟩ := view_block h6
  obtain ⟨e, rfl, h13⟩ := fits_sym h7
  have hp := view_params h10 h11 hc.1
  refine ⟨g, a, b, ps, ts, r, blk, e, rfl, h1, fun hl => (ho.2 hl).1, h8, h9, hp, h14, ?_, fun hl => (ho.2 hl).2.1, view_spec h5,
    fun hl => (ho.2 hl).2.2, h12, h13⟩
  have hm := hc.2
  simp only [vec, Node.children_node, punct, List.filter_map, List.length_map, Function.comp_def, namedParam_pair] at hm
  rw [hm]
  rfl

/-! ## Statements -/

theorem view_names : ∀ {ps : List (Pair Node)}, PEl (Fits c .name) [.dot] ⟨ps⟩ →
    ∃ ns : List (Pair TokRef), ps = ns.map (Pair.map .tok) ∧ PEl (fun t => Nam t) [.dot] ⟨ns⟩
  | [], _ => ⟨[], rfl, nofun⟩
  | p :: ps, h3 => by
    obtain ⟨ns, rfl, hns⟩ := view_names (ps := ps) fun x hx => h3 x (.tail _ hx)
    have h5 := h3 p (.head _)
    cases p with
    | «end» v =>
      obtain ⟨t, x, rfl, h6⟩ := fits_name h5.1
      refine ⟨.end t :: ns, rfl, fun z hz => ?_⟩
      rcases List.mem_cons.1 hz with rfl | hz
      · exact ⟨⟨x, h6⟩, nofun⟩
      · exact hns z hz
    | punctuated v u =>
      obtain ⟨t, x, rfl, h6⟩ := fits_name h5.1
      refine ⟨.punctuated t u :: ns, rfl, fun z hz => ?_⟩
      rcases List.mem_cons.1 hz with rfl | hz
      · exact ⟨⟨x, h6⟩, h5.2⟩
      · exact hns z hz

theorem sep_map {f : α → β} {s : Spec.Style} {ns : List (Pair α)} (h4 : Sep s (⟨ns.map (Pair.map f)⟩ : Punctuated β)) :
    Sep s (⟨ns⟩ : Punctuated α) := by
  refine ⟨fun x hx => ?_, fun h => ?_, fun h x hx => ?_⟩
  · have := h4.1 (x.map f) (by simp only [← List.map_dropLast]; exact List.mem_map.2 ⟨x, hx, rfl⟩)
    rwa [pair_map_punctuation] at this
  · have := h4.2.1 h; simpa using this
  · have := h4.2.2 h (x.map f) (by simp only [List.getLast?_map]; rw [hx]; rfl)
    rwa [pair_map_punctuation] at this

theorem view_functionName {n : Node} (h : Fits c (.cat .functionName) n) : ∃ (ns : Punctuated TokRef) (o : Option (TokRef × TokRef)), n = functionNameNode ns o ∧
    PEl (fun t => Nam t) [.dot] ns ∧ Sep .nonempty ns ∧ ∀ p, o = some p → Sym p.1 .colon ∧ Nam p.2 := by
  kinds h
  obtain ⟨x, y, rfl, h1, h2⟩ := fits_two hf
  obtain ⟨⟨ps⟩, rfl, h3, h4⟩ := fits_list h1
  obtain ⟨ns, rfl, h5⟩ := view_names h3
  have h6 := sep_map h4
  rcases fits_opt h2 with rfl | ⟨m, rfl, h7⟩
  · exact ⟨⟨ns⟩, none, rfl, h5, h6, nofun⟩
  · obtain ⟨a, b, rfl, h8, h9⟩ := fits_pair h7
    obtain ⟨a, rfl, h10⟩ := fits_sym h8
    obtain ⟨b, x, rfl, h11⟩ := fits_name h9
    exact ⟨⟨ns⟩, some (a, b), rfl, h5, h6, by rintro _ ⟨⟩; exact ⟨h10, x, h11⟩⟩

end FM.Parser.Forward
