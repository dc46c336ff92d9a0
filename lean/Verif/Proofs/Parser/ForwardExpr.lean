import Verif.Proofs.Parser.ViewStmt

/-! Helper lemmas: the parser accepts the expressions of the grammar. -/

namespace FM.Parser.Forward
open FM.Spec FM.Parser FM.Parser.Clean

variable {c : Cfg} {α β : Type}

/-! ## Tokens -/

section
variable {t : TokRef} {a s : Symbol}

theorem is_sym (h : Sym t a) : is s t = decide (a = s) := by
  by_cases h1 : a = s
  · subst h1; rw [is_iff.2 h]; simp
  · rw [is_false_iff.2 (by rw [h]; simpa using h1)]; simp [h1]
theorem isSymbol_sym (h : Sym t a) : t.isSymbol s = decide (a = s) := is_sym h
theorem isIdent_sym (h : Sym t a) : t.isIdent = false := by simp [TokRef.isIdent, h, TokenType.kind]
theorem isString_sym (h : Sym t a) : t.isString = false := by simp [TokRef.isString, h, TokenType.kind]
theorem isNumber_sym (h : Sym t a) : t.isNumber = false := by simp [TokRef.isNumber, h, TokenType.kind]
theorem isEof_sym (h : Sym t a) : t.isEof = false := by simp [TokRef.isEof, h, TokenType.kind]
theorem interpKind_sym (h : Sym t a) : interpKind t = none := by simp [interpKind, h]

theorem is_nam (h : Nam t) : is s t = false := by obtain ⟨x, h⟩ := h; rw [is_false_iff, h]; simp
theorem isIdent_nam (h : Nam t) : t.isIdent = true := isIdent_iff.2 h
theorem isString_nam (h : Nam t) : t.isString = false := by obtain ⟨x, h⟩ := h; simp [TokRef.isString, h, TokenType.kind]
theorem isNumber_nam (h : Nam t) : t.isNumber = false := by obtain ⟨x, h⟩ := h; simp [TokRef.isNumber, h, TokenType.kind]

theorem is_str (h : t.token.type.kind = .stringLiteral) : is s t = false := by
  rw [is_false_iff]; intro h1; rw [h1] at h; cases h
theorem isIdent_str (h : t.token.type.kind = .stringLiteral) : t.isIdent = false := by simp [TokRef.isIdent, h]
theorem is_num (h : t.token.type.kind = .number) : is s t = false := by
  rw [is_false_iff]; intro h1; rw [h1] at h; cases h
theorem isIdent_num (h : t.token.type.kind = .number) : t.isIdent = false := by simp [TokRef.isIdent, h]
theorem isString_num (h : t.token.type.kind = .number) : t.isString = false := by simp [TokRef.isString, h]

theorem is_eof (h : t.isEof = true) : is s t = false := by
  rw [is_false_iff]; intro h1; rw [isEof_sym h1] at h; cases h
theorem isIdent_eof (h : t.isEof = true) : t.isIdent = false := by
  have h1 : t.token.type.kind = .eof := by simpa [TokRef.isEof] using h
  simp [TokRef.isIdent, h1]
theorem isString_eof (h : t.isEof = true) : t.isString = false := by
  have h1 : t.token.type.kind = .eof := by simpa [TokRef.isEof] using h
  simp [TokRef.isString, h1]
theorem isNumber_eof (h : t.isEof = true) : t.isNumber = false := by
  have h1 : t.token.type.kind = .eof := by simpa [TokRef.isEof] using h
  simp [TokRef.isNumber, h1]
theorem interpKind_eof (h : t.isEof = true) : interpKind t = none := by
  have h1 : t.token.type.kind = .eof := by simpa [TokRef.isEof] using h
  unfold interpKind
  split
  · rename_i h2; rw [h2] at h1; cases h1
  · rfl
end

/-- The symbols of binary operators. -/
def binary (s : Symbol) : Bool := BinOp.all.any fun o => o.symbol == s

theorem prec_sym {t : TokRef} {s : Symbol} (h : Sym t s) (hs : binary s = false) : BinOp.precedenceOfToken c.feat t = none := by
  simp only [BinOp.precedenceOfToken, h, BinOp.ofSymbol]
  rw [List.find?_eq_none.2]
  · rfl
  · intro o ho h1
    simp only [binary, List.any_eq_false] at hs
    exact hs o ho (by simp only [Bool.and_eq_true] at h1; exact h1.1)

theorem prec_other {t : TokRef} (h : ∀ s, t.token.type ≠ .symbol s) : BinOp.precedenceOfToken c.feat t = none := by
  unfold BinOp.precedenceOfToken
  split
  · rename_i s hs; exact absurd hs (h s)
  · rfl

theorem prec_nam {t : TokRef} (h : Nam t) : BinOp.precedenceOfToken c.feat t = none := by
  obtain ⟨x, h⟩ := h; exact prec_other fun s hs => by rw [h] at hs; cases hs
theorem prec_eof {t : TokRef} (h : t.isEof = true) : BinOp.precedenceOfToken c.feat t = none :=
  prec_other fun s hs => by rw [isEof_sym hs] at h; cases h

theorem symbol_injective : ∀ o o' : BinOp, o.symbol = o'.symbol → o = o' := by intro o o'; cases o <;> cases o' <;> decide

theorem hasAny_compiled {o : BinOp} (h : c.hasAny o.gates = true) : o.compiled c.feat = true := by
  simp only [Cfg.hasAny, BinOp.compiled, Bool.or_eq_true_iff, List.any_eq_true] at h ⊢
  rcases h with h | ⟨v, hv, h⟩
  · exact .inl h
  · refine .inr ⟨v, hv, ?_⟩
    simp only [Cfg.has, LuaVersion.has, Bool.and_eq_true_iff] at h
    exact h.1

theorem ofSymbol_op {o : BinOp} (h : c.hasAny o.gates = true) : BinOp.ofSymbol c.feat o.symbol = some o := by
  unfold BinOp.ofSymbol
  cases hf : BinOp.all.find? (fun o' => o'.symbol == o.symbol && o'.compiled c.feat) with
  | none =>
    have := List.find?_eq_none.1 hf o (by cases o <;> decide)
    simp [hasAny_compiled h] at this
  | some o' =>
    have := List.find?_some hf
    simp only [Bool.and_eq_true, beq_iff_eq] at this
    rw [symbol_injective _ _ this.1]

theorem prec_op {o : BinOp} {t : TokRef} (ht : Sym t o.symbol) (h : c.hasAny o.gates = true) : BinOp.precedenceOfToken c.feat t = some o.level := by
  simp [BinOp.precedenceOfToken, ht, ofSymbol_op h]

theorem accept_op {o : BinOp} {t : TokRef} (ht : Sym t o.symbol) (h : c.hasAny o.gates = true) : BinOp.accept c t = some o := by
  simp [BinOp.accept, ht, ofSymbol_op h, h]

/-! ## What follows a type -/

/-- The tokens that continue any type. -/
def extends_ (t : TokRef) : Bool := is .questionMark t || is .pipe t || is .ampersand t

/-- The token after a type, apart from separators of unions and intersections. -/
structure FollowR (ty : Node) (t : TokRef) : Prop where
  dot : is .dot t = false
  arrow : is .thinArrow t = false
  ellipsis : is .ellipsis t = false
  less : endsName ty = true → is .lessThan t = false

/-- The token after a type. -/
def FollowT (ty : Node) (t : TokRef) : Prop := extends_ t = false ∧ FollowR ty t

/-- A type or pack takes a following `?`, `|` or `&`. -/
def openType (ty : Node) : Bool := !isOne [.tyGenericPack] ty && !list? ty

/-- The token after a type or pack. -/
def FollowP (ty : Node) (t : TokRef) : Prop := (openType ty = true → extends_ t = false) ∧ FollowR ty t

/-- The symbols that may follow any type. -/
def typeEnds (s : Symbol) : Bool :=
  s != .questionMark && s != .pipe && s != .ampersand && s != .dot && s != .thinArrow && s != .ellipsis && s != .lessThan

theorem follow_sym {t : TokRef} {s : Symbol} (h : Sym t s) (hs : typeEnds s = true) (ty : Node) : FollowT ty t := by
  simp only [typeEnds, Bool.and_eq_true_iff, bne_iff_ne] at hs
  obtain ⟨⟨⟨⟨⟨⟨h1, h2⟩, h3⟩, h4⟩, h5⟩, h6⟩, h7⟩ := hs
  exact ⟨by simp [extends_, is_sym h, *], by simp [is_sym h, *], by simp [is_sym h, *], by simp [is_sym h, *], fun _ => by simp [is_sym h, *]⟩

theorem follow_none {t : TokRef} (h : ∀ s, is s t = false) (ty : Node) : FollowT ty t :=
  ⟨by simp [extends_, h], h _, h _, h _, fun _ => h _⟩

theorem FollowT.pack {ty : Node} {t : TokRef} (h : FollowT ty t) : FollowP ty t := ⟨fun _ => h.1, h.2⟩

/-! ## What follows an expression -/

/-- The tokens that continue a variable, call or parenthesised expression. -/
def startsSuffix (c : Cfg) (t : TokRef) : Bool :=
  (c.feat.cfxlua && is .questionMarkDot t) || is .dot t || is .leftBracket t || is .leftParen t || is .leftBrace t || t.isString || is .colon t

/-- The token after an expression, apart from operators. -/
structure Rest (c : Cfg) (e : Node) (t : TokRef) : Prop where
  suffix : callable e = true → startsSuffix c t = false
  assertion : c.luau = true → asserts e = true → is .twoColons t = false
  type : c.luau = true → ∀ ty, lastType e = some ty → FollowT ty t

/-- The token after an expression inside an expression. -/
def Ends (c : Cfg) (e : Node) (t : TokRef) : Prop :=
  (∀ n, BinOp.precedenceOfToken c.feat t = some n → ∀ x ∈ rightEdge e, keepsLeft t.token.display x) ∧ Rest c e t

/-- The token after an expression. -/
def Stop (c : Cfg) (e : Node) (t : TokRef) : Prop := BinOp.precedenceOfToken c.feat t = none ∧ Rest c e t

theorem Stop.ends {e : Node} {t : TokRef} (h : Stop c e t) : Ends c e t := ⟨fun _ hn => (nomatch h.1.symm.trans hn), h.2⟩

/-- A token `<` is not followed by another. -/
def Ahead (t : TokRef) (l : List TokRef) : Prop := is .lessThan t = true → ∃ u l', l = u :: l' ∧ is .lessThan u = false

theorem Stop.ahead {e : Node} {t : TokRef} {l : List TokRef} (h : Stop c e t) : Ahead t l := by
  intro ht
  have h1 := h.1
  rw [BinOp.precedenceOfToken, is_iff.1 ht] at h1
  exfalso
  have h2 : BinOp.ofSymbol c.feat Symbol.lessThan = some .lessThan := by
    have : c.hasAny BinOp.lessThan.gates = true := by simp [Cfg.hasAny, BinOp.gates]
    exact ofSymbol_op this
  simp [h2] at h1

/-- The symbols that may follow any expression. -/
def stops (s : Symbol) : Bool := !binary s && s != .questionMarkDot && s != .dot && s != .leftBracket && s != .leftParen && s != .leftBrace && s != .colon &&
  s != .twoColons && typeEnds s

theorem stop_sym {t : TokRef} {s : Symbol} (h : Sym t s) (hs : stops s = true) (e : Node) : Stop c e t := by
  simp only [stops, Bool.and_eq_true_iff, Bool.not_eq_true', bne_iff_ne] at hs
  obtain ⟨⟨⟨⟨⟨⟨⟨⟨h1, h2⟩, h3⟩, h4⟩, h5⟩, h6⟩, h7⟩, h8⟩, h9⟩ := hs
  refine ⟨prec_sym h h1, fun _ => ?_, fun _ _ => by simp [is_sym h, h8], fun _ ty _ => follow_sym h h9 ty⟩
  simp [startsSuffix, is_sym h, isString_sym h, *]

theorem stop_nam {t : TokRef} (h : Nam t) (e : Node) : Stop c e t :=
  ⟨prec_nam h, fun _ => by simp [startsSuffix, is_nam h, isString_nam h], fun _ _ => is_nam h, fun _ ty _ => follow_none (fun _ => is_nam h) ty⟩

theorem stop_eof {t : TokRef} (h : t.isEof = true) (e : Node) : Stop c e t :=
  ⟨prec_eof h, fun _ => by simp [startsSuffix, is_eof h, isString_eof h], fun _ _ => is_eof h, fun _ ty _ => follow_none (fun _ => is_eof h) ty⟩

theorem kind_interp {t : TokRef} {k : InterpKind} (h : interpKind t = some k) : t.token.type.kind = .interpolatedString := by
  unfold interpKind at h
  split at h
  · rename_i h1; rw [h1]; rfl
  · cases h
theorem is_interp {t : TokRef} {s : Symbol} {k : InterpKind} (h : interpKind t = some k) : is s t = false := by
  rw [is_false_iff]; intro h1; rw [interpKind_sym h1] at h; cases h

theorem stop_interp {t : TokRef} {k : InterpKind} (h : interpKind t = some k) (e : Node) : Stop c e t :=
  ⟨prec_other (fun s hs => by rw [interpKind_sym hs] at h; cases h),
    fun _ => by simp [startsSuffix, is_interp h, TokRef.isString, kind_interp h], fun _ _ => is_interp h, fun _ ty _ => follow_none (fun _ => is_interp h) ty⟩

/-! ## Chains of operators -/

/-- An operator with its right operand. -/
structure Op where
  op : BinOp
  tok : TokRef
  rhs : Node

/-- An operand followed by operators. -/
def spine (h : Node) (T : List Op) : Node := T.foldl (fun l x => .node .exprBinary [l, .node (.binOp x.op) [.tok x.tok], x.rhs]) h

instance : Yield Op := ⟨fun x => x.tok :: x.rhs.flat⟩
@[simp] theorem yield_op (x : Op) : yield x = x.tok :: x.rhs.flat := rfl

/-- The first token of the operators, or the one after them. -/
def hdTok : List Op → TokRef → TokRef
  | [], t => t
  | x :: _, _ => x.tok

/-- The operators form a chain that ends before a token. -/
def Links (c : Cfg) : List Op → TokRef → Prop
  | [], _ => True
  | x :: T, t => Sym x.tok x.op.symbol ∧ c.hasAny x.op.gates = true ∧ Fits c .expr x.rhs ∧ (∀ p ∈ leftEdge x.rhs, keepsRight x.op.symbol.text p) ∧
    Ends c x.rhs (hdTok T t) ∧ (∀ n, BinOp.precedenceOfToken c.feat (hdTok T t) = some n → keepsLeft (hdTok T t).token.display (.binary x.op.symbol.text)) ∧ Links c T t

theorem hdTok_append {T : List Op} {x : Op} {t : TokRef} : hdTok (T ++ [x]) t = hdTok T x.tok := by cases T <;> rfl

theorem links_append {T T' : List Op} {t : TokRef} : Links c (T ++ T') t ↔ Links c T (hdTok T' t) ∧ Links c T' t := by
  induction T with
  | nil => simp [Links]
  | cons x T ih =>
    have : hdTok (T ++ T') t = hdTok T (hdTok T' t) := by cases T <;> rfl
    simp only [List.cons_append, Links, this, ih]
    constructor
    · rintro ⟨h1, h2, h3, h4, h5, h6, h7, h8⟩; exact ⟨⟨h1, h2, h3, h4, h5, h6, h7⟩, h8⟩
    · rintro ⟨⟨h1, h2, h3, h4, h5, h6, h7⟩, h8⟩; exact ⟨h1, h2, h3, h4, h5, h6, h7, h8⟩

theorem flat_binary {l r : Node} {o : BinOp} {t : TokRef} : (Node.node .exprBinary [l, .node (.binOp o) [.tok t], r]).flat = l.flat ++ t :: r.flat := by flat

theorem flat_spine {h : Node} {T : List Op} : (spine h T).flat = h.flat ++ yield T := by
  unfold spine
  induction T generalizing h with
  | nil => simp
  | cons x T ih => rw [List.foldl_cons, ih, flat_binary]; simp

theorem op_suffix {t : TokRef} : ∀ o : BinOp, Sym t o.symbol → startsSuffix c t = false := by
  intro o h
  cases o <;> simp [startsSuffix, is_sym h, isString_sym h, BinOp.symbol]

theorem op_colons {t : TokRef} : ∀ o : BinOp, Sym t o.symbol → is .twoColons t = false := by
  intro o h
  cases o <;> simp [is_sym h, BinOp.symbol]

theorem op_follow {t : TokRef} {ty : Node} : ∀ o : BinOp, Sym t o.symbol →
    (o.symbol.text ≠ c!"|" ∧ o.symbol.text ≠ c!"&" ∧ (o.symbol.text = c!"<" → endsName ty = false)) → FollowT ty t := by
  intro o h hx
  by_cases ho : typeEnds o.symbol = true
  · exact follow_sym h ho ty
  · cases o <;> first | exact absurd rfl ho | exact absurd rfl hx.1 | exact absurd rfl hx.2.1 | skip
    have := hx.2.2 rfl
    exact ⟨by simp [extends_, is_sym h, BinOp.symbol], by simp [is_sym h, BinOp.symbol], by simp [is_sym h, BinOp.symbol], by simp [is_sym h, BinOp.symbol],
      fun h1 => by rw [this] at h1; cases h1⟩

/-- An expression is a chain of operators. -/
theorem links_of (e : Node) : ∀ t, Fits c .expr e → Ends c e t → ∃ h T, e = spine h T ∧ Fits c .expr h ∧ kindOf h ≠ some .exprBinary ∧ Links c T t ∧
    Ends c h (hdTok T t) ∧ ∀ x ∈ T, x.op.symbol.text ∈ leftEdge e := by
  induction e using Node.induct with
  | ht t => intro _ h; have := view_expr h; cases this
  | hn k cs ih =>
    intro t hf he
    by_cases hk : k = .exprBinary
    · subst hk
      have hv := view_expr hf
      cases hv
      rename_i l r o u h1 h2 h3 h4 h5 h6 h8
      have hu : u.token.display = o.symbol.text := display_symbol h2
      obtain ⟨h, T, rfl, g1, g2, g3, g4, g5⟩ := ih l (by simp) u h1 ⟨fun n _ => hu ▸ h5, fun _ => op_suffix o h2, fun _ _ => op_colons o h2,
        fun hl ty hty => op_follow o h2 (h8 hl ty hty)⟩
      refine ⟨h, T ++ [⟨o, u, r⟩], ?_, g1, g2, ?_, ?_, ?_⟩
      · simp [spine]
      · rw [links_append]
        have h7 : opText (.node (.binOp o) [.tok u]) = o.symbol.text := opText_binOp h2
        simp only [Ends, rightEdge, h7] at he
        refine ⟨g3, h2, h3, h4, h6, ⟨fun n hn x hx => he.1 n hn x (.tail _ hx), fun h => he.2.1 (by simpa only [callable] using h),
          fun hl h => he.2.2 hl (by simpa only [asserts] using h), fun hl ty h => he.2.3 hl ty (by simpa only [lastType] using h)⟩, fun n hn => he.1 n hn _ (.head _), trivial⟩
      · rw [hdTok_append]; exact g4
      · intro x hx
        rcases List.mem_append.1 hx with hx | hx
        · rw [leftEdge]; exact .tail _ (g5 x hx)
        · cases List.mem_singleton.1 hx
          rw [leftEdge, opText_binOp h2]; exact .head _
    · exact ⟨.node k cs, [], rfl, hf, by simpa [kindOf] using hk, trivial, he, nofun⟩

/-! ## The parser functions -/

/-- The tokens that end a block. -/
def Closes (t : TokRef) : Prop := (∃ s ∈ [Symbol.kEnd, .kElse, .kElseIf, .kUntil], Sym t s) ∨ t.isEof = true

/-- The tokens that may start an expression. -/
def startsExpr (c : Cfg) (t : TokRef) : Bool :=
  (c.feat.luau && is .atSign t) || is .kFunction t || (is .kTrue t || is .kFalse t || is .kNil t || is .ellipsis t) || t.isString || t.isNumber ||
  (t.isIdent || is .leftParen t) || startsUnary c t || is .leftBrace t || (c.luau && is .kIf t) || (interpKind t).isSome

/-- What is known of the parser functions called recursively. -/
structure RecF (c : Cfg) (r : Rec) : Prop where
  block : ∀ b t l, BlkF c b → Closes t → runs r.block (yield b ++ t :: l) (.value b) (t :: l)
  expr : ∀ e t l, Fits c .expr e → Stop c e t → runs r.expr (e.flat ++ t :: l) (.value e) (t :: l)
  noExpr : ∀ t l, startsExpr c t = false → runs r.expr (t :: l) .notFound (t :: l)
  primary : ∀ e t l, Fits c .expr e → kindOf e ≠ some .exprBinary → Ends c e t → Ahead t l →
    runs r.primary (e.flat ++ t :: l) (.value e) (t :: l)
  climb : ∀ h T p t l, Links c T t → (∀ x ∈ T, p ≤ x.op.level) → (∀ n, BinOp.precedenceOfToken c.feat t = some n → n < p) → Ahead t l →
    runs (r.climb h p) (yield T ++ t :: l) (.value (spine h T)) (t :: l)
  type : c.luau = true → ∀ ty t l, Fits c (.cat .typeInfo) ty → single ty = true → FollowT ty t → runs r.type (ty.flat ++ t :: l) (.value ty) (t :: l)
  typeOrPack : c.luau = true → ∀ ty t l, Fits c (.cat .typeInfo) ty → variadic ty = false → led ty = false → FollowP ty t →
    runs r.typeOrPack (ty.flat ++ t :: l) (.value ty) (t :: l)

/-! ## Lists -/

theorem oneOrMoreLoop_runs [Yield α] {p : M (Res α)} {s : Symbol} {P : α → Prop} {Q : α → TokRef → Prop}
    (hp : ∀ a t l, P a → Q a t → runs p (yield a ++ t :: l) (.value a) (t :: l)) (hQ : ∀ a t, P a → Sym t s → Q a t) {ps : List (Pair α)} (h : ListF P s ps) :
    ∀ {t : TokRef} {l : List TokRef} n acc, is s t = false → (∀ a, ps.getLast? = some (.end a) → Q a t) →
      runs (oneOrMoreLoop p s n acc) (yield ps ++ t :: l) ⟨acc.pairs ++ ps⟩ (t :: l) := by
  induction h with
  | @last a ha =>
    intro t l n acc ht hl
    cases n with
    | zero => exact runs_diverge
    | succ n =>
      unfold oneOrMoreLoop
      have := hp a t l ha (hl a rfl)
      simp only [yield_cons, yield_nil, yield_end, List.append_nil]
      refine runs_bind this ?_
      dsimp only
      rw [consumeIf_neg ht]
      exact runs_pure
  | @cons a u x ps ha hu _ ih =>
    intro t l n acc ht hl
    cases n with
    | zero => exact runs_diverge
    | succ n =>
      unfold oneOrMoreLoop
      rw [yield_cons, yield_punctuated, List.append_assoc, List.append_assoc]
      refine runs_bind (hp a u _ ha (hQ a u ha hu)) ?_
      dsimp only [List.singleton_append]
      rw [consumeIf_pos (is_iff.2 hu)]
      have := ih (t := t) (l := l) n (acc.push (.punctuated a u)) ht (fun a ha => hl a (by simpa using ha))
      simpa [Punctuated.push] using this

theorem dropTrailing_eq {m : String} {ps : List (Pair α)} (h : ∀ x, ps.getLast? = some x → x.punctuation = none) : dropTrailing m ⟨ps⟩ = pure ⟨ps⟩ := by
  unfold dropTrailing Punctuated.pop
  split
  · rename_i v p rest h1
    have := h (.punctuated v p) (by simpa using congrArg (·.1) h1)
    cases this
  · rfl

theorem ListF.last_end {P : α → Prop} {s : Symbol} {ps : List (Pair α)} (h : ListF P s ps) : ∃ a, ps.getLast? = some (.end a) ∧ P a := by
  induction h with
  | last ha => exact ⟨_, rfl, ha⟩
  | cons _ _ _ ih => simpa using ih

theorem oneOrMore_runs [Yield α] {p : M (Res α)} {s : Symbol} {P : α → Prop} {Q : α → TokRef → Prop}
    (hp : ∀ a t l, P a → Q a t → runs p (yield a ++ t :: l) (.value a) (t :: l)) (hQ : ∀ a t, P a → Sym t s → Q a t) {ps : Punctuated α}
    (h : ListF P s ps.pairs) {t : TokRef} {l : List TokRef} (ht : is s t = false) (hl : ∀ a, ps.pairs.getLast? = some (.end a) → Q a t) :
    runs (oneOrMore p s) (yield ps ++ t :: l) (.value ps) (t :: l) := by
  unfold oneOrMore
  rw [fuel_bind]
  refine runs_bind (oneOrMoreLoop_runs hp hQ h _ _ ht hl) ?_
  change runs (if ps.isEmpty = true then _ else dropTrailing _ ps >>= _) _ _ _
  rw [if_neg (by simp [Punctuated.isEmpty, Punctuated.len, h.ne]), dropTrailing_eq, pure_bind']
  · exact runs_pure
  · obtain ⟨a, ha, -⟩ := h.last_end
    intro x hx
    rw [ha] at hx; cases hx; rfl

theorem oneOrMore_none {p : M (Res α)} {s : Symbol} {l : List TokRef} (h : runs p l .notFound l) : runs (oneOrMore p s) l .notFound l := by
  unfold oneOrMore
  rw [fuel_bind]
  refine runs_bind (a := .new) (l1 := l) ?_ runs_pure
  unfold oneOrMoreLoop
  refine runs_bind h ?_
  exact runs_pure

section
variable {self : Rec} (hs : RecF c self)
include hs

theorem expressionList_runs {es : Punctuated Node} (h : ListF (Fits c .expr) .comma es.pairs) {t : TokRef} {l : List TokRef} (ht : is .comma t = false)
    (hq : ∀ e, es.pairs.getLast? = some (.end e) → Stop c e t) : runs (parseExpressionList self) (yield es ++ t :: l) (.value es) (t :: l) :=
  oneOrMore_runs (Q := Stop c) hs.expr (fun e _ _ ht => stop_sym ht rfl e) h ht hq

theorem expressionList_none {t : TokRef} {l : List TokRef} (ht : startsExpr c t = false) : runs (parseExpressionList self) (t :: l) .notFound (t :: l) :=
  oneOrMore_none (hs.noExpr t l ht)

end

end FM.Parser.Forward
