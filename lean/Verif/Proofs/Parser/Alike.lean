import Lean.Elab.Tactic
import Verif.Spec.Alike
import Verif.Proofs.Ast.Tokens

/-! Helper lemmas: parser functions do not depend on names, numbers and strings. -/

namespace FM.Parser.Alike
open FM.Spec FM.Parser

variable {α β : Type}

/-- Values without trivia, positions, names, numbers and strings. -/
class Strip (α : Type) where
  strip : α → α
export Strip (strip)

instance : Strip Bool := ⟨id⟩
instance : Strip Nat := ⟨id⟩
instance : Strip Unit := ⟨id⟩
instance : Strip TokRef := ⟨faint⟩
instance : Strip Err := ⟨faintErr⟩
instance : Strip (LexRes TokRef) := ⟨faintRes⟩
instance : Strip Node := ⟨Node.mapTok faint⟩
instance [Strip α] : Strip (Option α) := ⟨Option.map strip⟩
instance [Strip α] : Strip (List α) := ⟨List.map strip⟩
instance [Strip α] [Strip β] : Strip (α × β) := ⟨fun p => (strip p.1, strip p.2)⟩
instance [Strip α] : Strip (Pair α) := ⟨fun
  | .end v => .end (strip v)
  | .punctuated v p => .punctuated (strip v) (strip p)⟩
instance [Strip α] : Strip (Punctuated α) := ⟨fun p => ⟨strip p.pairs⟩⟩
instance [Strip α] : Strip (Res α) := ⟨fun
  | .value a => .value (strip a)
  | .moved => .moved
  | .notFound => .notFound⟩
instance : Strip Took := ⟨fun
  | .took t => .took (strip t)
  | .other t => .other (strip t)
  | .fatal => .fatal⟩
instance : Strip Blk := ⟨fun b => ⟨strip b.stmts, strip b.last⟩⟩
instance : Strip Name := ⟨fun b => ⟨strip b.name, strip b.attr, strip b.typeSpec⟩⟩
instance : Strip StmtV := ⟨fun
  | .stmt n => .stmt (strip n)
  | .last n => .last (strip n)⟩
instance : Strip Default := ⟨fun
  | .absent => .absent
  | .present n => .present (strip n)
  | .moved => .moved⟩
instance : Strip ParamRes := ⟨fun
  | .param n a b => .param (strip n) a b
  | .moved => .moved
  | .notFound => .notFound⟩
instance : Strip TableEnd := ⟨fun
  | .err => .err
  | .done r f => .done (strip r) (strip f)
  | .fields f => .fields (strip f)
  | .array a t => .array (strip a) (strip t)⟩
instance : Strip FieldRes := ⟨fun
  | .field n b => .field (strip n) b
  | .stop e => .stop (strip e)⟩
instance : Strip Arg := ⟨fun a => ⟨strip a.name, strip a.type⟩⟩
instance : Strip Suffix := ⟨fun a => ⟨strip a.types, a.isUnion, a.isIntersection, strip a.leading⟩⟩

@[simp] theorem strip_bool (b : Bool) : strip b = b := rfl
@[simp] theorem strip_nat (b : Nat) : strip b = b := rfl
@[simp] theorem strip_unit (b : Unit) : strip b = b := rfl
@[simp] theorem strip_none [Strip α] : strip (none : Option α) = none := rfl
@[simp] theorem strip_some [Strip α] (a : α) : strip (some a) = some (strip a) := rfl
@[simp] theorem strip_nil [Strip α] : strip ([] : List α) = [] := rfl
@[simp] theorem strip_cons [Strip α] (a : α) (l : List α) : strip (a :: l) = strip a :: strip l := rfl
@[simp] theorem strip_append [Strip α] (a b : List α) : strip (a ++ b) = strip a ++ strip b := List.map_append
@[simp] theorem strip_mk [Strip α] [Strip β] (a : α) (b : β) : strip (a, b) = (strip a, strip b) := rfl
@[simp] theorem strip_end [Strip α] (a : α) : strip (Pair.end a) = .end (strip a) := rfl
@[simp] theorem strip_punctuated [Strip α] (a : α) (t : TokRef) : strip (Pair.punctuated a t) = .punctuated (strip a) (strip t) := rfl
@[simp] theorem strip_value [Strip α] (a : α) : strip (Res.value a) = .value (strip a) := rfl
@[simp] theorem strip_moved [Strip α] : strip (Res.moved : Res α) = .moved := rfl
@[simp] theorem strip_notFound [Strip α] : strip (Res.notFound : Res α) = .notFound := rfl
@[simp] theorem strip_took (t : TokRef) : strip (Took.took t) = .took (strip t) := rfl
@[simp] theorem strip_other (t : TokRef) : strip (Took.other t) = .other (strip t) := rfl
@[simp] theorem strip_fatal : strip Took.fatal = .fatal := rfl
@[simp] theorem strip_stmt (n : Node) : strip (StmtV.stmt n) = .stmt (strip n) := rfl
@[simp] theorem strip_last (n : Node) : strip (StmtV.last n) = .last (strip n) := rfl
@[simp] theorem strip_absent : strip Default.absent = .absent := rfl
@[simp] theorem strip_present (n : Node) : strip (Default.present n) = .present (strip n) := rfl
@[simp] theorem strip_dmoved : strip Default.moved = .moved := rfl
@[simp] theorem strip_param (n : Node) (a b : Bool) : strip (ParamRes.param n a b) = .param (strip n) a b := rfl
@[simp] theorem strip_pmoved : strip ParamRes.moved = .moved := rfl
@[simp] theorem strip_pnotFound : strip ParamRes.notFound = .notFound := rfl
@[simp] theorem strip_err : strip TableEnd.err = .err := rfl
@[simp] theorem strip_done (t : TokRef) (f : Punctuated Node) : strip (TableEnd.done t f) = .done (strip t) (strip f) := rfl
@[simp] theorem strip_fields (f : Punctuated Node) : strip (TableEnd.fields f) = .fields (strip f) := rfl
@[simp] theorem strip_array (a : Option TokRef) (t : Node) : strip (TableEnd.array a t) = .array (strip a) (strip t) := rfl
@[simp] theorem strip_field (n : Node) (b : Bool) : strip (FieldRes.field n b) = .field (strip n) b := rfl
@[simp] theorem strip_stop (e : TableEnd) : strip (FieldRes.stop e) = .stop (strip e) := rfl
@[simp] theorem strip_blk (s : List (Node × Option TokRef)) (l : Option (Node × Option TokRef)) : strip (⟨s, l⟩ : Blk) = ⟨strip s, strip l⟩ := rfl
@[simp] theorem strip_name (a : TokRef) (b d : Option Node) : strip (⟨a, b, d⟩ : Name) = ⟨strip a, strip b, strip d⟩ := rfl
@[simp] theorem strip_arg (a : Option (TokRef × TokRef)) (b : Node) : strip (⟨a, b⟩ : Arg) = ⟨strip a, strip b⟩ := rfl
@[simp] theorem strip_suffix (a : Punctuated Node) (b d : Bool) (e : Option TokRef) : strip (⟨a, b, d, e⟩ : Suffix) = ⟨strip a, b, d, strip e⟩ := rfl
@[simp] theorem strip_pairs [Strip α] (l : List (Pair α)) : strip (⟨l⟩ : Punctuated α) = ⟨strip l⟩ := rfl
@[simp] theorem strip_ok (t : TokRef) : strip (LexRes.ok t) = .ok (strip t) := rfl
@[simp] theorem strip_tok (t : TokRef) : strip (Node.tok t) = .tok (strip t) := rfl
@[simp] theorem strip_node (k : Kind) (cs : List Node) : strip (Node.node k cs) = .node k (strip cs) := Node.mapTok_node _ _ _

/-- The result of a parser function without trivia and positions. -/
def stripRun [Strip α] : Outcome (Run α) → Outcome (Run α)
  | .ok r => .ok ⟨strip r.val, strip r.toks, strip r.errs, r.silent⟩
  | .panic => .panic
  | .diverge => .diverge

/-- Two parser functions do the same up to trivia and positions. -/
def Sim [Strip α] (p q : M α) : Prop := ∀ ts ts' : Toks, strip ts = strip ts' → stripRun (p ts) = stripRun (q ts')

theorem sim_pure [Strip α] {a b : α} (h : strip a = strip b) : Sim (pure a) (pure b) := by
  intro ts ts' ht
  show stripRun (.ok _) = stripRun (.ok _)
  simp [stripRun, h, ht]

theorem sim_bind [Strip α] [Strip β] {p q : M α} {f g : α → M β} (h : Sim p q) (hf : ∀ a b, strip a = strip b → Sim (f a) (g b)) :
    Sim (p >>= f) (q >>= g) := by
  intro ts ts' ht
  have h1 := h ts ts' ht
  show stripRun (M.bind p f ts) = stripRun (M.bind q g ts')
  unfold M.bind
  cases hp : p ts <;> cases hq : q ts' <;> rw [hp, hq] at h1 <;> simp only [stripRun, Outcome.ok.injEq, Run.mk.injEq, reduceCtorEq] at h1 ⊢
  rename_i r r'
  obtain ⟨h2, h3, h4, h5⟩ := h1
  have h6 := hf _ _ h2 _ _ h3
  unfold Run.andThen
  cases hp : f r.val r.toks <;> cases hq : g r'.val r'.toks <;> rw [hp, hq] at h6 <;>
    simp only [stripRun, Outcome.ok.injEq, Run.mk.injEq, reduceCtorEq] at h6 ⊢
  simp [h4, h5, h6]

theorem sim_ite [Strip α] {c d : Prop} [Decidable c] [Decidable d] {p q p' q' : M α} (hc : c ↔ d) (h1 : c → d → Sim p p') (h2 : ¬ c → ¬ d → Sim q q') :
    Sim (if c then p else q) (if d then p' else q') := by
  by_cases h : c
  · rw [if_pos h, if_pos (hc.1 h)]; exact h1 h (hc.1 h)
  · rw [if_neg h, if_neg fun hd => h (hc.2 hd)]; exact h2 h fun hd => h (hc.2 hd)

theorem sim_panic [Strip α] : Sim (panic : M α) panic := fun _ _ _ => rfl
theorem sim_diverge [Strip α] : Sim (diverge : M α) diverge := fun _ _ _ => rfl

theorem length_strip [Strip α] (l : List α) : (strip l).length = l.length := List.length_map _

theorem sim_fuel : Sim fuel fuel := by
  intro ts ts' h
  have := congrArg List.length h
  rw [length_strip, length_strip] at this
  simp [fuel, stripRun, this, h]

theorem sim_giveUp : Sim giveUp giveUp := by
  intro ts ts' h
  simp [giveUp, stripRun, h]

/-! ## Tokens -/

theorem type_of_strip {t u : TokRef} (h : strip t = strip u) : faded t.token.type = faded u.token.type :=
  congrArg (a₁ := faint t) (a₂ := faint u) (fun x => x.token.type) h

theorem kind_faded (ty : TokenType) : (faded ty).kind = ty.kind := by cases ty <;> rfl

theorem trailing_of_strip {t u : TokRef} (h : strip t = strip u) (hi : t.token.type.kind = .interpolatedString) :
    t.trailing.isEmpty = u.trailing.isEmpty := by
  have h2 := congrArg TokenType.kind (type_of_strip h)
  rw [kind_faded, kind_faded] at h2
  have h1 := congrArg TokRef.trailing (show faint t = faint u from h)
  change (if _ then _ else _) = (if _ then _ else _) at h1
  rw [← h2, hi] at h1
  cases ht : t.trailing <;> cases hu : u.trailing <;> simp [ht, hu] at h1 ⊢

theorem sim_current : Sim current current := by
  intro ts ts' h
  match ts, ts' with
  | [], [] => rfl
  | [], _ :: _ => simp at h
  | _ :: _, [] => simp at h
  | x :: l, y :: l' =>
    simp only [strip_cons, List.cons.injEq] at h
    obtain ⟨h1, h2⟩ := h
    have h1' := h1
    cases x <;> cases y <;> simp [strip, faintRes] at h1' <;> simp [current, stripRun, h2, h1] <;>
      first | exact h1' | exact h1'.1

theorem sim_peek : Sim peek peek := by
  intro ts ts' h
  match ts, ts' with
  | [], [] => rfl
  | [], _ :: _ => simp at h
  | _ :: _, [] => simp at h
  | [x], [y] => rfl
  | [x], _ :: _ :: _ => simp at h
  | _ :: _ :: _, [y] => simp at h
  | z :: x :: l, z' :: y :: l' =>
    simp only [strip_cons, List.cons.injEq] at h
    obtain ⟨h0, h1, h2⟩ := h
    have h1' := h1
    cases x <;> cases y <;> simp [strip, faintRes] at h1' <;> simp [peek, stripRun, h0, h1, h2] <;>
      first | exact h1' | exact h1'.1

theorem strip_tokErrs {es es' : List TokErr} (h : es.map plainTokErr = es'.map plainTokErr) : strip (es.map Err.tokenizer) = strip (es'.map Err.tokenizer) := by
  have := congrArg (List.map Err.tokenizer) h
  simpa [strip, Function.comp_def, faintErr] using this

theorem sim_consume : Sim consume consume := by
  intro ts ts' h
  match ts, ts' with
  | [], [] => rfl
  | [], _ :: _ => simp at h
  | _ :: _, [] => simp at h
  | x :: l, y :: l' =>
    simp only [strip_cons, List.cons.injEq] at h
    obtain ⟨h1, h2⟩ := h
    cases x <;> cases y <;> simp only [strip, faintRes, LexRes.ok.injEq, LexRes.fatal.injEq, LexRes.recovered.injEq, reduceCtorEq] at h1 <;>
      simp only [consume, stripRun, strip_value, Outcome.ok.injEq, Run.mk.injEq, Res.value.injEq, h2, true_and, and_true, strip_nil, strip_moved]
    · exact h1
    · exact strip_tokErrs h1
    · exact ⟨h1.1, strip_tokErrs h1.2⟩

theorem sim_unwrap [Strip α] {a b : Res α} (h : strip a = strip b) : Sim a.unwrap b.unwrap := by
  cases a <;> cases b <;> simp at h
  · exact sim_pure h
  · exact sim_panic
  · exact sim_panic

theorem sim_tokenError {t u : TokRef} (h : strip t = strip u) {msg msg' : String} (hm : msg = msg') : Sim (tokenError t msg) (tokenError u msg') := by
  intro ts ts' hts
  subst hm
  simp only [tokenError, stripRun, hts, strip_cons, strip_nil, strip_unit]
  simp [strip, faintErr, type_of_strip h]

theorem sim_tokenErrorRanged {t u a b a' b' : TokRef} (h : strip t = strip u) {msg : String} : Sim (tokenErrorRanged t msg a b) (tokenErrorRanged u msg a' b') := by
  intro ts ts' hts
  simp only [tokenErrorRanged, stripRun, hts, strip_cons, strip_nil, strip_unit]
  simp [strip, faintErr, type_of_strip h]

theorem sim_made (f : Features) (v : LuaVersion) (text : Text) : Sim (made f v text) (made f v text) := by
  intro ts ts' h
  unfold made
  split <;> simp [stripRun, h]

theorem sim_basicSymbol {c : Cfg} {text : Text} : Sim (basicSymbol c text) (basicSymbol c text) := sim_made _ _ _

theorem tokens_strip (n : Node) : (strip n).tokens = strip n.tokens := by
  induction n using Node.induct with
  | ht t => rfl
  | hn k cs ih =>
    rw [strip_node, Node.tokens_node, Node.tokens_node]
    induction cs with
    | nil => rfl
    | cons a l ihl =>
      simp only [strip_cons, List.flatMap_cons, strip_append]
      rw [ih a (.head _), ihl fun x hx => ih x (.tail _ hx)]

theorem strip_head [Strip α] (l : List α) : (strip l).head? = strip l.head? := by cases l <;> rfl
theorem strip_getLast [Strip α] (l : List α) : (strip l).getLast? = strip l.getLast? := List.getLast?_map
theorem strip_dropLast [Strip α] (l : List α) : (strip l).dropLast = strip l.dropLast := List.map_dropLast.symm
theorem strip_tail [Strip α] (l : List α) : (strip l).tail = strip l.tail := by cases l <;> rfl

theorem next_strip {n m : Node} (h : strip n = strip m) : strip (Tokens.next n.items).1 = strip (Tokens.next m.items).1 := by
  rw [(next_spec _).1, (next_spec _).1, (items_spec n).1, (items_spec m).1, ← strip_head, ← strip_head, ← tokens_strip, ← tokens_strip, h]

theorem nextBack_strip {n m : Node} (h : strip n = strip m) : strip (Tokens.nextBack n.items).1 = strip (Tokens.nextBack m.items).1 := by
  rw [(nextBack_spec _).1, (nextBack_spec _).1, (items_spec n).1, (items_spec m).1, ← strip_getLast, ← strip_getLast, ← tokens_strip, ← tokens_strip, h]

theorem sim_firstToken {n m : Node} (h : strip n = strip m) : Sim (firstToken n) (firstToken m) := by
  have := next_strip h
  unfold firstToken
  revert this
  generalize (Tokens.next n.items).1 = a
  generalize (Tokens.next m.items).1 = b
  cases a <;> cases b <;> intro h <;> simp only [strip_none, strip_some, reduceCtorEq, Option.some.injEq] at h
  · exact sim_panic
  · exact sim_pure h

theorem sim_lastToken {n m : Node} (h : strip n = strip m) : Sim (lastToken n) (lastToken m) := by
  have := nextBack_strip h
  unfold lastToken
  revert this
  generalize (Tokens.nextBack n.items).1 = a
  generalize (Tokens.nextBack m.items).1 = b
  cases a <;> cases b <;> intro h <;> simp only [strip_none, strip_some, reduceCtorEq, Option.some.injEq] at h
  · exact sim_panic
  · exact sim_pure h

/-! ## Building nodes -/

instance : Strip Pre := ⟨fun
  | .expr e => .expr (strip e)
  | .name t => .name (strip t)⟩
instance : Strip CtorRes := ⟨fun
  | .field n => .field (strip n)
  | .done t => .done (strip t)
  | .unfinished => .unfinished⟩
instance : Strip Params := ⟨fun
  | .done r ps ts => .done (strip r) (strip ps) (strip ts)
  | .unfinished ps => .unfinished (strip ps)⟩
instance : Strip ElseIfs := ⟨fun
  | .done ps => .done (strip ps)
  | .unfinished n => .unfinished (strip n)⟩
instance [Strip α] : Strip (Called α Unit) := ⟨fun
  | .returned u a => .returned u (strip a)
  | .panicked a => .panicked (strip a)⟩
instance : Strip UnOp := ⟨id⟩
instance : Strip BinOp := ⟨id⟩
instance : Strip CompoundOp := ⟨id⟩
instance : Strip InterpKind := ⟨id⟩

@[simp] theorem strip_pexpr (n : Node) : strip (Pre.expr n) = .expr (strip n) := rfl
@[simp] theorem strip_pname (n : TokRef) : strip (Pre.name n) = .name (strip n) := rfl
@[simp] theorem strip_cfield (n : Node) : strip (CtorRes.field n) = .field (strip n) := rfl
@[simp] theorem strip_cdone (n : TokRef) : strip (CtorRes.done n) = .done (strip n) := rfl
@[simp] theorem strip_cunfinished : strip CtorRes.unfinished = .unfinished := rfl
@[simp] theorem strip_psdone (r : TokRef) (ps : Punctuated Node) (ts : List Node) : strip (Params.done r ps ts) = .done (strip r) (strip ps) (strip ts) := rfl
@[simp] theorem strip_psunfinished (ps : Punctuated Node) : strip (Params.unfinished ps) = .unfinished (strip ps) := rfl
@[simp] theorem strip_edone (ps : List Node) : strip (ElseIfs.done ps) = .done (strip ps) := rfl
@[simp] theorem strip_eunfinished (n : Node) : strip (ElseIfs.unfinished n) = .unfinished (strip n) := rfl
@[simp] theorem strip_returned [Strip α] (a : α) (b : Unit) : strip (Called.returned b a) = .returned b (strip a) := rfl
@[simp] theorem strip_panicked [Strip α] (a : α) : strip (Called.panicked a : Called α Unit) = .panicked (strip a) := rfl
@[simp] theorem strip_unop (a : UnOp) : strip a = a := rfl
@[simp] theorem strip_binop (a : BinOp) : strip a = a := rfl
@[simp] theorem strip_compound (a : CompoundOp) : strip a = a := rfl
@[simp] theorem strip_interp (a : InterpKind) : strip a = a := rfl

@[simp] theorem strip_proj_pairs [Strip α] (p : Punctuated α) : strip p.pairs = (strip p).pairs := rfl
@[simp] theorem strip_proj_name (p : Name) : strip p.name = (strip p).name := rfl
@[simp] theorem strip_proj_attr (p : Name) : strip p.attr = (strip p).attr := rfl
@[simp] theorem strip_proj_typeSpec (p : Name) : strip p.typeSpec = (strip p).typeSpec := rfl
@[simp] theorem strip_proj_aname (p : Arg) : strip p.name = (strip p).name := rfl
@[simp] theorem strip_proj_atype (p : Arg) : strip p.type = (strip p).type := rfl
@[simp] theorem strip_proj_stmts (p : Blk) : strip p.stmts = (strip p).stmts := rfl
@[simp] theorem strip_proj_last (p : Blk) : strip p.last = (strip p).last := rfl
@[simp] theorem strip_proj_types (p : Suffix) : strip p.types = (strip p).types := rfl
@[simp] theorem strip_proj_leading (p : Suffix) : strip p.leading = (strip p).leading := rfl
@[simp] theorem strip_fst [Strip α] [Strip β] (p : α × β) : strip p.1 = (strip p).1 := rfl
@[simp] theorem strip_snd [Strip α] [Strip β] (p : α × β) : strip p.2 = (strip p).2 := rfl

theorem strip_map [Strip α] [Strip β] {f : α → β} (h : ∀ a, strip (f a) = f (strip a)) (l : List α) : strip (l.map f) = (strip l).map f := by
  induction l with
  | nil => rfl
  | cons a l ih => simp [h, ih]

theorem strip_omap [Strip α] [Strip β] {f : α → β} (h : ∀ a, strip (f a) = f (strip a)) (l : Option α) : strip (l.map f) = (strip l).map f := by
  cases l <;> simp [h]

theorem isSome_strip [Strip α] (l : Option α) : (strip l).isSome = l.isSome := by cases l <;> rfl
theorem isEmpty_strip [Strip α] (l : List α) : (strip l).isEmpty = l.isEmpty := by cases l <;> rfl

@[simp] theorem strip_Nnone : strip Node.none = Node.none := strip_node _ _
@[simp] theorem strip_Nsome (n : Node) : strip (Node.some n) = Node.some (strip n) := strip_node _ _
@[simp] theorem strip_optTok (t : Option TokRef) : strip (optTok t) = optTok (strip t) := by cases t <;> simp [optTok]
@[simp] theorem strip_optNode (t : Option Node) : strip (optNode t) = optNode (strip t) := by cases t <;> simp [optNode]
@[simp] theorem strip_vec (ns : List Node) : strip (vec ns) = vec (strip ns) := strip_node _ _
@[simp] theorem strip_span (a b : TokRef) : strip (span a b) = span (strip a) (strip b) := strip_node _ _
@[simp] theorem strip_pairNode (p : Pair Node) : strip (pairNode p) = pairNode (strip p) := by cases p <;> simp [pairNode]
@[simp] theorem strip_punct (p : Punctuated Node) : strip (punct p) = punct (strip p) := by
  unfold punct; rw [strip_node, strip_map strip_pairNode]; rfl
@[simp] theorem strip_stmtNode (p : Node × Option TokRef) : strip (stmtNode p) = stmtNode (strip p) := by simp [stmtNode]
@[simp] theorem strip_bnode (b : Blk) : strip b.node = (strip b).node := by
  unfold Blk.node; simp [strip_map strip_stmtNode, strip_omap strip_stmtNode]
@[simp] theorem strip_bempty : strip Blk.empty = Blk.empty := rfl
@[simp] theorem strip_genericParam (n : Node) (d : Option Node) : strip (genericParam n d) = genericParam (strip n) (strip d) := by simp [genericParam]
@[simp] theorem strip_anode (a : Arg) : strip a.node = (strip a).node := by
  unfold Arg.node; rw [strip_node]; simp only [strip_cons, strip_nil, strip_optNode, strip_proj_atype]
  rw [strip_omap fun p => by simp]; simp
@[simp] theorem strip_methodNode (a b : TokRef) (t : Option Node) (n : Node) : strip (methodNode a b t n) = methodNode (strip a) (strip b) (strip t) (strip n) := by
  simp [methodNode]
@[simp] theorem strip_prenode (p : Pre) : strip p.node = (strip p).node := by cases p <;> simp [Pre.node]
@[simp] theorem strip_callNode (p : Pre) (l : List Node) : strip (callNode p l) = callNode (strip p) (strip l) := by simp [callNode]
@[simp] theorem strip_varExprNode (p : Pre) (l : List Node) : strip (varExprNode p l) = varExprNode (strip p) (strip l) := by simp [varExprNode]
@[simp] theorem strip_varNode (p : Pre) (l : List Node) : strip (varNode p l) = varNode (strip p) (strip l) := by
  cases p <;> cases l <;> simp [varNode]
theorem hasKind_strip (k : Kind) (n : Node) : hasKind k (strip n) = hasKind k n := by cases n <;> simp [hasKind]
theorem lastIsCall_strip (l : List Node) : lastIsCall (strip l) = lastIsCall l := by
  unfold lastIsCall
  rw [strip_getLast]
  cases l.getLast? <;> simp [hasKind_strip]
@[simp] theorem strip_prefixExprNode (p : Pre) (l : List Node) : strip (prefixExprNode p l) = prefixExprNode (strip p) (strip l) := by
  cases l with
  | nil => cases p <;> simp [prefixExprNode]
  | cons a l =>
    have : ∀ (q : Pre) (b : Node) (m : List Node), prefixExprNode q (b :: m) =
        if lastIsCall (b :: m) then .node .exprCall [callNode q (b :: m)] else .node .exprVar [varExprNode q (b :: m)] := by
      intro q b m; cases q <;> rfl
    rw [strip_cons, this, this, ← strip_cons, lastIsCall_strip]
    split <;> simp
@[simp] theorem strip_optVec (l : List Node) : strip (optVec l) = optVec (strip l) := by
  unfold optVec; rw [isEmpty_strip]; split <;> simp
@[simp] theorem strip_interpolatedEnd : strip interpolatedEnd = interpolatedEnd := by rfl
@[simp] theorem strip_interpBroken (t : TokRef) (l : List Node) : strip (interpBroken t l) = interpBroken (strip t) (strip l) := by
  unfold interpBroken; rw [isEmpty_strip]; split <;> simp
@[simp] theorem strip_pmap [Strip α] [Strip β] {f : α → β} (h : ∀ a, strip (f a) = f (strip a)) (p : Pair α) : strip (p.map f) = (strip p).map f := by
  cases p <;> simp [Pair.map, h]
@[simp] theorem strip_functionNameNode (ns : Punctuated TokRef) (o : Option (TokRef × TokRef)) :
    strip (functionNameNode ns o) = functionNameNode (strip ns) (strip o) := by
  unfold functionNameNode
  simp only [strip_node, strip_cons, strip_nil, strip_punct, strip_optNode, strip_pairs]
  rw [strip_omap fun p => by simp, strip_map fun p => strip_pmap (fun _ => by simp) p]; rfl
@[simp] theorem strip_stmtF (k : Kind) (n : Node) : strip (stmt k n) = stmt k (strip n) := by simp [stmt]
@[simp] theorem strip_stmtOrMoved (k : Kind) (n : Option Node) : strip (stmtOrMoved k n) = stmtOrMoved k (strip n) := by cases n <;> simp [stmtOrMoved]
@[simp] theorem strip_pvalue [Strip α] (p : Pair α) : strip p.value = (strip p).value := by cases p <;> rfl
@[simp] theorem strip_typeSpecs (c : Cfg) (ns : Punctuated Name) : strip (typeSpecs c ns) = typeSpecs c (strip ns) := by
  unfold typeSpecs
  split
  · rw [strip_vec, strip_map fun p => by simp]; rfl
  · rfl
@[simp] theorem strip_attrs (c : Cfg) (ns : Punctuated Name) : strip (attrs c ns) = attrs c (strip ns) := by
  unfold attrs
  split
  · rw [strip_vec, strip_map fun p => by simp]; rfl
  · rfl
@[simp] theorem strip_nameNodes (ns : Punctuated Name) : strip (nameNodes ns) = nameNodes (strip ns) := by
  unfold nameNodes
  rw [strip_punct, strip_pairs, strip_map fun p => strip_pmap (fun _ => by simp) p]; rfl
@[simp] theorem strip_new [Strip α] : strip (Punctuated.new : Punctuated α) = .new := rfl
@[simp] theorem strip_localNode (c : Cfg) (l : TokRef) (ns : Punctuated Name) (e : Option TokRef) (es : Punctuated Node) :
    strip (localNode c l ns e es) = localNode c (strip l) (strip ns) (strip e) (strip es) := by simp [localNode]
@[simp] theorem strip_genericForNode (c : Cfg) (a : TokRef) (ns : Punctuated Name) (b : TokRef) (es : Punctuated Node) (d : TokRef) (bl : Blk) (e : TokRef) :
    strip (genericForNode c a ns b es d bl e) = genericForNode c (strip a) (strip ns) (strip b) (strip es) (strip d) (strip bl) (strip e) := by
  simp [genericForNode]
@[simp] theorem strip_returnNode (t : TokRef) (es : Punctuated Node) : strip (returnNode t es) = returnNode (strip t) (strip es) := by simp [returnNode]
@[simp] theorem strip_push [Strip α] (p : Punctuated α) (x : Pair α) : strip (p.push x) = (strip p).push (strip x) := by simp [Punctuated.push]
@[simp] theorem strip_pop [Strip α] (p : Punctuated α) : strip p.pop = (strip p).pop := by
  simp only [Punctuated.pop, strip_mk, strip_pairs, ← strip_getLast, ← strip_dropLast]; rfl
@[simp] theorem strip_plast [Strip α] (p : Punctuated α) : strip p.last = (strip p).last := by
  simp only [Punctuated.last, ← strip_getLast]; rfl
@[simp] theorem strip_Pnew [Strip α] (v : α) (p : Option TokRef) : strip (Pair.new v p) = Pair.new (strip v) (strip p) := by cases p <;> simp [Pair.new]
@[simp] theorem strip_punctuation [Strip α] (p : Pair α) : strip p.punctuation = (strip p).punctuation := by cases p <;> rfl
@[simp] theorem strip_intoValue [Strip α] (p : Pair α) : strip p.intoValue = (strip p).intoValue := by cases p <;> rfl
@[simp] theorem strip_pushPunctuated [Strip α] (p : Punctuated α) (v : α) (t : TokRef) :
    strip (p.pushPunctuated v t) = (strip p).pushPunctuated (strip v) (strip t) := by
  unfold Punctuated.pushPunctuated
  rw [← strip_pop]
  cases p.pop with
  | mk a q =>
    cases a with
    | none => rfl
    | some a => cases a <;> simp [Pair.punctuation, Pair.intoValue, Pair.intoTuple]
@[simp] theorem strip_noTrailing [Strip α] (p : Punctuated α) : strip (noTrailing p) = noTrailing (strip p) := by
  unfold noTrailing
  rw [← strip_pop]
  cases p.pop with
  | mk a q =>
    cases a with
    | none => rfl
    | some a => cases a <;> simp
theorem pisEmpty_strip [Strip α] (p : Punctuated α) : (strip p).isEmpty = p.isEmpty := by
  simp [Punctuated.isEmpty, Punctuated.len, ← strip_proj_pairs, length_strip]

end FM.Parser.Alike
