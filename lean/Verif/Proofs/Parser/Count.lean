import Verif.Proofs.Parser.Tactics

/-! Helper lemmas: a program logic that counts tokens.  It bounds the number of tokens of a tree and of the times the parser
gave up by the number of tokens consumed. -/

namespace FM.Parser.Count
open FM.Parser

variable {α β : Type}

/-- A weight for tokens, at most one, and zero for the first token of the source and those the parser makes. -/
class Wt where
  f : TokRef → Nat
  all : List TokRef
  le : ∀ t, f t ≤ 1
  first : ∀ t rest, all = t :: rest → f t = 0
  made : ∀ (t : TokRef) (g : Features) (text : Text), symbolSpecific ⟨g, .lua51⟩ text = .ok (.ok t) → f t = 0
  stop : f interpolatedEnd = 0

/-- The number of tokens of the source. -/
abbrev N [Wt] : Nat := Wt.all.length

/-- The weight of the tokens that remain: their number, without the first of the source. -/
def mu [Wt] (l : List TokRef) : Nat := min l.length (N - 1)

/-- The total weight of the tokens of a value. -/
class Sz (α : Type) where
  sz : (TokRef → Nat) → α → Nat

/-- The total weight of the tokens of a value. -/
def sz [Wt] [Sz α] (a : α) : Nat := Sz.sz Wt.f a

/-- If `p` runs on `l` without recording an error, then it ends in a state where `Q` holds. -/
def kwp [Wt] (p : M α) (l : List TokRef) (d : Nat) (Q : α → List TokRef → Nat → Prop) : Prop :=
  l <:+ Wt.all → ∀ r, p (l.map .ok) = .ok r → r.errs = [] →
    ∃ l', r.toks = l'.map .ok ∧ l' <:+ Wt.all ∧ l'.length ≤ l.length ∧ Q r.val l' (d + r.silent)

/-- A value of failure, after which the caller drops a token. -/
class Bad (α : Type) where
  bad : α → Nat

instance : Bad (Res α) := ⟨fun | .moved => 1 | _ => 0⟩
instance : Bad (Option α) := ⟨fun | none => 1 | _ => 0⟩
instance : Bad TableEnd := ⟨fun | .err => 1 | _ => 0⟩
instance : Bad FieldRes := ⟨fun | .stop .err => 1 | _ => 0⟩

theorem bad_moved : Bad.bad (Res.moved : Res α) = 1 := rfl
theorem bad_notFound : Bad.bad (Res.notFound : Res α) = 0 := rfl
theorem bad_value (v : α) : Bad.bad (Res.value v) = 0 := rfl
theorem bad_none : Bad.bad (none : Option α) = 1 := rfl
theorem bad_some (v : α) : Bad.bad (some v) = 0 := rfl
theorem bad_err : Bad.bad TableEnd.err = 1 := rfl
theorem bad_done (t : TokRef) (x : Punctuated Node) : Bad.bad (TableEnd.done t x) = 0 := rfl
theorem bad_fields (x : Punctuated Node) : Bad.bad (TableEnd.fields x) = 0 := rfl
theorem bad_array (t : Option TokRef) (x : Node) : Bad.bad (TableEnd.array t x) = 0 := rfl
theorem bad_stopErr : Bad.bad (FieldRes.stop .err) = 1 := rfl
theorem bad_stop (e : TableEnd) : Bad.bad (FieldRes.stop e) = Bad.bad e := by cases e <;> rfl
theorem bad_field (n : Node) (b : Bool) : Bad.bad (FieldRes.field n b) = 0 := rfl

variable [Wt] {l : List TokRef} {d : Nat}

theorem kwp_pure {a : α} {Q : α → List TokRef → Nat → Prop} (h : Q a l d) : kwp (pure a) l d Q := by
  intro hl r hr _
  cases hr
  exact ⟨l, rfl, hl, Nat.le_refl _, h⟩

theorem kwp_bind {p : M α} {g : α → M β} {Q : β → List TokRef → Nat → Prop}
    (h : kwp p l d fun a l' d' => kwp (g a) l' d' Q) : kwp (p >>= g) l d Q := by
  intro hl r hr he
  have hb : (p >>= g) (l.map .ok) = M.bind p g (l.map .ok) := rfl
  rw [hb, M.bind] at hr
  split at hr
  · rename_i r1 h1
    unfold Run.andThen at hr
    split at hr
    · rename_i r2 h2
      cases hr
      simp only [List.append_eq_nil_iff] at he
      obtain ⟨l', hl', hs, hlen, hq⟩ := h hl r1 h1 he.1
      rw [hl'] at h2
      obtain ⟨l2, h3, h4, h5, h6⟩ := hq hs r2 h2 he.2
      exact ⟨l2, h3, h4, by omega, by rw [← Nat.add_assoc]; exact h6⟩
    · cases hr
    · cases hr
  · cases hr
  · cases hr

/-- Use a specification. -/
theorem kcall {p : M α} {Q Q' : α → List TokRef → Nat → Prop} (h : kwp p l d Q)
    (hq : ∀ a l' d', l'.length ≤ l.length → Q a l' d' → Q' a l' d') : kwp p l d Q' := by
  intro hl r hr he
  obtain ⟨l', h1, h2, h3, h4⟩ := h hl r hr he
  exact ⟨l', h1, h2, h3, hq _ _ _ h3 h4⟩

theorem kwp_ite {b : Prop} [Decidable b] {p q : M α} {Q : α → List TokRef → Nat → Prop}
    (h : b → kwp p l d Q) (h' : ¬ b → kwp q l d Q) : kwp (if b then p else q) l d Q := by
  split
  · exact h ‹_›
  · exact h' ‹_›

theorem kwp_dead {p : M α} {Q : α → List TokRef → Nat → Prop} (h : ∀ ts r, p ts = .ok r → r.errs ≠ []) : kwp p l d Q :=
  fun _ r hr he => absurd he (h _ r hr)

theorem kwp_panic {Q : α → List TokRef → Nat → Prop} : kwp (panic : M α) l d Q := by intro _ r hr; cases hr
theorem kwp_diverge {Q : α → List TokRef → Nat → Prop} : kwp (diverge : M α) l d Q := by intro _ r hr; cases hr
theorem kwp_giveUp {Q : Unit → List TokRef → Nat → Prop} (h : Q () l (d + 1)) : kwp giveUp l d Q := by
  intro hl r hr _; cases hr; exact ⟨l, rfl, hl, Nat.le_refl _, h⟩
theorem kwp_tokenError {t : TokRef} {m : String} {Q : Unit → List TokRef → Nat → Prop} : kwp (tokenError t m) l d Q := by
  intro _ r hr he; cases hr; cases he
theorem kwp_tokenErrorRanged {t a b : TokRef} {m : String} {Q : Unit → List TokRef → Nat → Prop} :
    kwp (tokenErrorRanged t m a b) l d Q := by intro _ r hr he; cases hr; cases he
theorem kwp_fuel {Q : Nat → List TokRef → Nat → Prop} (h : ∀ n, Q n l d) : kwp fuel l d Q := by
  intro hl r hr _; cases hr; exact ⟨l, rfl, hl, Nat.le_refl _, h _⟩

/-! ## Looking at and taking tokens -/

theorem kwp_current {Q : Option TokRef → List TokRef → Nat → Prop} (h : ∀ t, Q (some t) l d) : kwp current l d Q := by
  cases l with
  | nil => intro _ r hr; cases hr
  | cons t l => intro hl r hr _; cases hr; exact ⟨_, rfl, hl, Nat.le_refl _, h t⟩

theorem kwp_peek {Q : Option TokRef → List TokRef → Nat → Prop} (h : ∀ t, Q (some t) l d) : kwp peek l d Q := by
  match l with
  | [] => intro _ r hr; cases hr
  | [_] => intro _ r hr; cases hr
  | _ :: t :: l => intro hl r hr _; cases hr; exact ⟨_, rfl, hl, Nat.le_refl _, h t⟩

/-- What taking the token `t` from `l`, with `rest` remaining, means for the count. -/
theorem take_count {t : TokRef} {rest : List TokRef} (hl : t :: rest <:+ Wt.all) :
    ∃ e, mu (t :: rest) = mu rest + e ∧ Wt.f t ≤ e ∧ ((t :: rest).length < N → 1 ≤ e) := by
  have hlen := hl.length_le
  unfold mu
  simp only [List.length_cons] at hlen ⊢
  by_cases h : rest.length + 1 < N
  · exact ⟨1, by omega, Wt.le t, fun _ => Nat.le_refl _⟩
  · have he : (t :: rest).length = Wt.all.length := by simp only [List.length_cons]; have : N = Wt.all.length := rfl; omega
    have := hl.eq_of_length he
    exact ⟨0, by omega, by rw [Wt.first t rest this.symm]; exact Nat.le_refl _, fun h' => absurd h' h⟩

theorem kwp_consume {Q : Res TokRef → List TokRef → Nat → Prop}
    (h : ∀ t rest e, rest.length < l.length → mu l = mu rest + e → Wt.f t ≤ e → (l.length < N → 1 ≤ e) → Q (.value t) rest d)
    (hne : l = [] → Q .notFound l d) : kwp consume l d Q := by
  cases l with
  | nil => intro hl r hr _; cases hr; exact ⟨[], rfl, hl, Nat.le_refl _, hne rfl⟩
  | cons t rest =>
    intro hl r hr _
    cases hr
    obtain ⟨e, h1, h2, h3⟩ := take_count hl
    exact ⟨rest, rfl, (List.suffix_cons t rest).trans hl, by simp, h t rest e (by simp) h1 h2 h3⟩

theorem kwp_take {Q : TokRef → List TokRef → Nat → Prop}
    (h : ∀ t rest e, rest.length < l.length → mu l = mu rest + e → Wt.f t ≤ e → (l.length < N → 1 ≤ e) → Q t rest d) :
    kwp take l d Q :=
  kwp_bind (kwp_consume (fun t rest e h1 h2 h3 h4 => kwp_pure (h t rest e h1 h2 h3 h4)) fun _ => kwp_panic)

theorem kwp_takeIf {p : TokRef → Bool} {Q : Took → List TokRef → Nat → Prop}
    (h1 : ∀ t rest e, rest.length < l.length → mu l = mu rest + e → Wt.f t ≤ e → (l.length < N → 1 ≤ e) → Q (.took t) rest d)
    (h2 : ∀ t, Q (.other t) l d) : kwp (takeIf p) l d Q :=
  kwp_bind (kwp_current fun t => kwp_ite (fun _ => kwp_bind (kwp_take fun t' rest e a b c d => kwp_pure (h1 t' rest e a b c d)))
    fun _ => kwp_pure (h2 t))

theorem kwp_consumeIf {s : Symbol} {Q : Option TokRef → List TokRef → Nat → Prop}
    (h1 : ∀ t rest e, rest.length < l.length → mu l = mu rest + e → Wt.f t ≤ e → (l.length < N → 1 ≤ e) → Q (some t) rest d)
    (h2 : Q none l d) : kwp (consumeIf s) l d Q :=
  kwp_bind (kwp_takeIf (fun t rest e a b c d => kwp_pure (h1 t rest e a b c d)) fun _ => kwp_pure h2)

theorem kwp_consumeIfAny {ss : List Symbol} {Q : Option TokRef → List TokRef → Nat → Prop}
    (h1 : ∀ t rest e, rest.length < l.length → mu l = mu rest + e → Wt.f t ≤ e → (l.length < N → 1 ≤ e) → Q (some t) rest d)
    (h2 : Q none l d) : kwp (consumeIfAny ss) l d Q :=
  kwp_bind (kwp_takeIf (fun t rest e a b c d => kwp_pure (h1 t rest e a b c d)) fun _ => kwp_pure h2)

theorem kwp_require {s : Symbol} {m : String} {Q : Option TokRef → List TokRef → Nat → Prop}
    (h1 : ∀ t rest e, rest.length < l.length → mu l = mu rest + e → Wt.f t ≤ e → (l.length < N → 1 ≤ e) → Q (some t) rest d) :
    kwp (FM.Parser.require s m) l d Q :=
  kwp_bind (kwp_takeIf (fun t rest e a b c d => kwp_pure (h1 t rest e a b c d)) fun _ => kwp_bind kwp_tokenError)

theorem kwp_requireWithToken {s : Symbol} {m : String} {u : TokRef} {Q : Option TokRef → List TokRef → Nat → Prop}
    (h1 : ∀ t rest e, rest.length < l.length → mu l = mu rest + e → Wt.f t ≤ e → (l.length < N → 1 ≤ e) → Q (some t) rest d) :
    kwp (requireWithToken s m u) l d Q :=
  kwp_bind (kwp_takeIf (fun t rest e a b c d => kwp_pure (h1 t rest e a b c d)) fun _ => kwp_bind kwp_tokenError)

theorem kwp_requireWithRange {s : Symbol} {m : String} {p : M (TokRef × TokRef)} {Q : Option TokRef → List TokRef → Nat → Prop}
    (h1 : ∀ t rest e, rest.length < l.length → mu l = mu rest + e → Wt.f t ≤ e → (l.length < N → 1 ≤ e) → Q (some t) rest d) :
    kwp (requireWithRange s m p) l d Q :=
  kwp_bind (kwp_takeIf (fun t rest e a b c d => kwp_pure (h1 t rest e a b c d)) fun _ => kwp_dead fun ts r hr => by
    have hb : (p >>= fun x => tokenErrorRanged _ m x.1 x.2 >>= fun _ => pure none : M (Option TokRef)) ts = .ok r := hr
    change M.bind p _ ts = .ok r at hb
    unfold M.bind at hb
    split at hb
    · unfold Run.andThen at hb
      split at hb
      · rename_i r2 h2
        cases h2
        cases hb
        simp
      · cases hb
      · cases hb
    · cases hb
    · cases hb)

theorem kwp_currentIs {p : TokRef → Bool} {Q : Bool → List TokRef → Nat → Prop} (h : ∀ b, Q b l d) : kwp (currentIs p) l d Q :=
  kwp_bind (kwp_current fun _ => kwp_pure (h _))

theorem kwp_peekIs {p : TokRef → Bool} {Q : Bool → List TokRef → Nat → Prop} (h : ∀ b, Q b l d) : kwp (peekIs p) l d Q :=
  kwp_bind (kwp_peek fun _ => kwp_pure (h _))

theorem kwp_currentUnwrap {Q : TokRef → List TokRef → Nat → Prop} (h : ∀ t, Q t l d) : kwp currentUnwrap l d Q :=
  kwp_bind (kwp_current fun _ => kwp_pure (h _))

theorem kwp_firstToken {n : Node} {Q : TokRef → List TokRef → Nat → Prop} (h : ∀ t, Q t l d) : kwp (firstToken n) l d Q := by
  unfold firstToken
  split
  · exact kwp_pure (h _)
  · exact kwp_panic

theorem kwp_lastToken {n : Node} {Q : TokRef → List TokRef → Nat → Prop} (h : ∀ t, Q t l d) : kwp (lastToken n) l d Q := by
  unfold lastToken
  split
  · exact kwp_pure (h _)
  · exact kwp_panic

theorem kwp_made {g : Features} {text : Text} {Q : TokRef → List TokRef → Nat → Prop}
    (h : ∀ t, Wt.f t ≤ 0 → Q t l d) : kwp (made g .lua51 text) l d Q := by
  intro hl r hr _
  unfold made at hr
  split at hr
  · rename_i t ht
    cases hr
    exact ⟨l, rfl, hl, Nat.le_refl _, h t (Nat.le_of_eq (Wt.made t g text ht))⟩
  · cases hr
  · cases hr
  · cases hr

theorem kwp_basicSymbol {c : Cfg} {text : Text} {Q : TokRef → List TokRef → Nat → Prop}
    (h : ∀ t, Wt.f t ≤ 0 → Q t l d) : kwp (basicSymbol c text) l d Q := kwp_made h

theorem kwp_requireOr {c : Cfg} {s : Symbol} {m : String} {text : Text} {Q : TokRef → List TokRef → Nat → Prop}
    (h1 : ∀ t rest e, rest.length < l.length → mu l = mu rest + e → Wt.f t ≤ e → (l.length < N → 1 ≤ e) → Q t rest d) :
    kwp (requireOr c s m text) l d Q :=
  kwp_bind (kwp_require fun t rest e a b c d => kwp_pure (h1 t rest e a b c d))

/-! ## Sizes -/

instance : Sz TokRef := ⟨fun f t => f t⟩
instance : Sz Node := ⟨fun f n => (n.tokens.map f).sum⟩
instance [Sz α] : Sz (Option α) := ⟨fun f x => match x with | none => 0 | some a => Sz.sz f a⟩
instance [Sz α] : Sz (List α) := ⟨fun f l => (l.map (Sz.sz f)).sum⟩
instance [Sz α] [Sz β] : Sz (α × β) := ⟨fun f p => Sz.sz f p.1 + Sz.sz f p.2⟩
instance [Sz α] : Sz (Pair α) := ⟨fun f x => match x with | .«end» v => Sz.sz f v | .punctuated v p => Sz.sz f v + f p⟩
instance [Sz α] : Sz (Punctuated α) := ⟨fun f p => Sz.sz f p.pairs⟩
instance [Sz α] : Sz (Res α) := ⟨fun f x => match x with | .value v => Sz.sz f v | _ => 0⟩
instance : Sz Name := ⟨fun f n => f n.name + Sz.sz f n.attr + Sz.sz f n.typeSpec⟩
instance : Sz Blk := ⟨fun f b => Sz.sz f b.stmts + Sz.sz f b.last⟩
instance : Sz Arg := ⟨fun f a => Sz.sz f a.name + Sz.sz f a.type⟩
instance : Sz Pre := ⟨fun f x => match x with | .expr e => Sz.sz f e | .name t => f t⟩
instance : Sz StmtV := ⟨fun f x => match x with | .stmt n => Sz.sz f n | .last n => Sz.sz f n⟩
instance : Sz Default := ⟨fun f x => match x with | .present n => Sz.sz f n | _ => 0⟩
instance : Sz ParamRes := ⟨fun f x => match x with | .param n _ _ => Sz.sz f n | _ => 0⟩
instance : Sz TableEnd := ⟨fun f x => match x with
  | .err => 0
  | .done right fields => f right + Sz.sz f fields
  | .fields fields => Sz.sz f fields
  | .array access ty => Sz.sz f access + Sz.sz f ty⟩
instance : Sz FieldRes := ⟨fun f x => match x with | .field n _ => Sz.sz f n | .stop e => Sz.sz f e⟩
instance : Sz CtorRes := ⟨fun f x => match x with | .field n => Sz.sz f n | .done t => f t | .unfinished => 0⟩
instance : Sz Params := ⟨fun f x => match x with
  | .done right ps types => f right + Sz.sz f ps + Sz.sz f types
  | .unfinished ps => Sz.sz f ps⟩
instance : Sz ElseIfs := ⟨fun f x => match x with | .done parts => Sz.sz f parts | .unfinished n => Sz.sz f n⟩
instance : Sz Suffix := ⟨fun f x => Sz.sz f x.types + Sz.sz f x.leading⟩

section
variable [Sz α] [Sz β]

theorem sz_ref (t : TokRef) : sz t = Wt.f t := rfl
theorem sz_tok (t : TokRef) : sz (Node.tok t) = Wt.f t := by simp [sz, Sz.sz]
theorem sz_nil : sz ([] : List α) = 0 := rfl
theorem sz_cons (a : α) (l : List α) : sz (a :: l) = sz a + sz l := rfl
theorem sz_append (a b : List α) : sz (a ++ b) = sz a + sz b := by simp [sz, Sz.sz]
theorem sz_node (k : Kind) (cs : List Node) : sz (Node.node k cs) = sz cs := by
  induction cs with
  | nil => simp [sz, Sz.sz]
  | cons c cs ih =>
    rw [sz_cons, ← ih]
    simp [sz, Sz.sz]
theorem sz_nodeNone : sz Node.none = 0 := sz_node _ _
theorem sz_nodeSome (n : Node) : sz (Node.some n) = sz n := by simp [Node.some, sz_node, sz_cons, sz_nil]
theorem sz_none : sz (none : Option α) = 0 := rfl
theorem sz_some (a : α) : sz (some a) = sz a := rfl
theorem sz_prod (p : α × β) : sz p = sz p.1 + sz p.2 := rfl
theorem sz_end (v : α) : sz (Pair.end v) = sz v := rfl
theorem sz_punctuated (v : α) (p : TokRef) : sz (Pair.punctuated v p) = sz v + Wt.f p := rfl
theorem sz_pairNew (v : α) (p : TokRef) : sz (Pair.new v (some p)) = sz v + Wt.f p := rfl
theorem sz_new : sz (Punctuated.new : Punctuated α) = 0 := rfl
theorem sz_mk (ps : List (Pair α)) : sz (Punctuated.mk ps) = sz ps := rfl
theorem sz_push (p : Punctuated α) (x : Pair α) : sz (p.push x) = sz p + sz x := by
  show sz (p.pairs ++ [x]) = sz p.pairs + sz x
  rw [sz_append, sz_cons, sz_nil, Nat.add_zero]
theorem sz_value (v : α) : sz (Res.value v) = sz v := rfl
theorem sz_moved : sz (Res.moved : Res α) = 0 := rfl
theorem sz_notFound : sz (Res.notFound : Res α) = 0 := rfl
theorem sz_name (n : Name) : sz n = Wt.f n.name + sz n.attr + sz n.typeSpec := rfl
theorem sz_blk (s : List (Node × Option TokRef)) (x : Option (Node × Option TokRef)) : sz (Blk.mk s x) = sz s + sz x := rfl
theorem sz_blkEmpty : sz Blk.empty = 0 := rfl
theorem sz_arg (n : Option (TokRef × TokRef)) (t : Node) : sz (Arg.mk n t) = sz n + sz t := rfl
theorem sz_preExpr (e : Node) : sz (Pre.expr e) = sz e := rfl
theorem sz_preName (t : TokRef) : sz (Pre.name t) = Wt.f t := rfl
theorem sz_stmt (n : Node) : sz (StmtV.stmt n) = sz n := rfl
theorem sz_last (n : Node) : sz (StmtV.last n) = sz n := rfl
theorem sz_absent : sz Default.absent = 0 := rfl
theorem sz_present (n : Node) : sz (Default.present n) = sz n := rfl
theorem sz_defaultMoved : sz Default.moved = 0 := rfl
theorem sz_param (n : Node) (a b : Bool) : sz (ParamRes.param n a b) = sz n := rfl
theorem sz_paramMoved : sz ParamRes.moved = 0 := rfl
theorem sz_paramNotFound : sz ParamRes.notFound = 0 := rfl
theorem sz_err : sz TableEnd.err = 0 := rfl
theorem sz_done (t : TokRef) (fs : Punctuated Node) : sz (TableEnd.done t fs) = Wt.f t + sz fs := rfl
theorem sz_fields (fs : Punctuated Node) : sz (TableEnd.fields fs) = sz fs := rfl
theorem sz_array (a : Option TokRef) (n : Node) : sz (TableEnd.array a n) = sz a + sz n := rfl
theorem sz_field (n : Node) (b : Bool) : sz (FieldRes.field n b) = sz n := rfl
theorem sz_stop (e : TableEnd) : sz (FieldRes.stop e) = sz e := rfl
theorem sz_ctorField (n : Node) : sz (CtorRes.field n) = sz n := rfl
theorem sz_ctorDone (t : TokRef) : sz (CtorRes.done t) = Wt.f t := rfl
theorem sz_ctorUnfinished : sz CtorRes.unfinished = 0 := rfl
theorem sz_paramsDone (t : TokRef) (ps : Punctuated Node) (ts : List Node) :
    sz (Params.done t ps ts) = Wt.f t + sz ps + sz ts := rfl
theorem sz_paramsUnfinished (ps : Punctuated Node) : sz (Params.unfinished ps) = sz ps := rfl
theorem sz_elseIfsDone (ps : List Node) : sz (ElseIfs.done ps) = sz ps := rfl
theorem sz_elseIfsUnfinished (n : Node) : sz (ElseIfs.unfinished n) = sz n := rfl
theorem sz_suffix (t : Punctuated Node) (a b : Bool) (x : Option TokRef) : sz (Suffix.mk t a b x) = sz t + sz x := rfl
theorem sz_suffixEta (x : Suffix) : sz x = sz x.types + sz x.leading := rfl

theorem sz_span (o e : TokRef) : sz (span o e) = Wt.f o + Wt.f e := by
  simp only [span, Node.spanOf, sz_node, sz_cons, sz_nil, sz_tok, Nat.add_zero]
theorem sz_optTok (o : Option TokRef) : sz (optTok o) = sz o := by
  cases o with
  | none => exact sz_nodeNone
  | some t => exact (sz_nodeSome _).trans (sz_tok t)
theorem sz_optNode (o : Option Node) : sz (optNode o) = sz o := by
  cases o with
  | none => exact sz_nodeNone
  | some t => exact sz_nodeSome _
theorem sz_vec (ns : List Node) : sz (vec ns) = sz ns := sz_node _ _
theorem sz_optVec (ns : List Node) : sz (optVec ns) = sz ns := by
  unfold optVec
  split
  · rename_i h
    rw [List.isEmpty_iff.1 h]
    exact sz_nodeNone
  · rw [sz_nodeSome, sz_vec]
theorem sz_map_eq {g : α → β} {l : List α} (h : ∀ a, sz (g a) = sz a) : sz (l.map g) = sz l := by
  induction l with
  | nil => rfl
  | cons a l ih => rw [List.map_cons, sz_cons, sz_cons, h, ih]
theorem sz_map_le {g : α → β} {l : List α} (h : ∀ a, sz (g a) ≤ sz a) : sz (l.map g) ≤ sz l := by
  induction l with
  | nil => exact Nat.le_refl _
  | cons a l ih => rw [List.map_cons, sz_cons, sz_cons]; exact Nat.add_le_add (h a) ih
theorem sz_pairNode (p : Pair Node) : sz (pairNode p) = sz p := by
  cases p with
  | «end» v => simp only [pairNode, sz_node, sz_cons, sz_nil, sz_end, Nat.add_zero]
  | punctuated v t => simp only [pairNode, sz_node, sz_cons, sz_nil, sz_punctuated, sz_tok, Nat.add_zero]
theorem sz_punct (p : Punctuated Node) : sz (punct p) = sz p := by
  rw [punct, sz_node]
  exact sz_map_eq sz_pairNode
theorem sz_pairMap {g : α → β} (h : ∀ a, sz (g a) ≤ sz a) (p : Pair α) : sz (p.map g) ≤ sz p := by
  cases p with
  | «end» v => exact h v
  | punctuated v t => exact Nat.add_le_add_right (h v) _
theorem sz_stmtNode (s : Node × Option TokRef) : sz (stmtNode s) = sz s := by
  simp only [stmtNode, sz_node, sz_cons, sz_nil, sz_optTok, sz_prod, Nat.add_zero]
theorem sz_optMap {g : α → β} (h : ∀ a, sz (g a) ≤ sz a) (o : Option α) : sz (o.map g) ≤ sz o := by
  cases o with
  | none => exact Nat.le_refl _
  | some a => exact h a
theorem sz_blkNode (b : Blk) : sz b.node = sz b := by
  simp only [Blk.node, sz_node, sz_cons, sz_nil, sz_vec, sz_optNode, Nat.add_zero, sz_map_eq sz_stmtNode]
  cases b with
  | mk s x => cases x with
    | none => rfl
    | some y => simp only [Option.map, sz_some, sz_stmtNode, sz_blk]
theorem sz_preNode (p : Pre) : sz p.node = sz p := by
  cases p with
  | expr e => simp only [Pre.node, sz_node, sz_cons, sz_nil, Nat.add_zero, sz_preExpr]
  | name t => simp only [Pre.node, sz_node, sz_cons, sz_nil, Nat.add_zero, sz_tok, sz_preName]
theorem sz_argNode (a : Arg) : sz a.node = sz a := by
  obtain ⟨n, t⟩ := a
  cases n with
  | none => simp only [Arg.node, Option.map, sz_node, sz_cons, sz_nil, sz_optNode, sz_none, sz_arg, Nat.add_zero]
  | some p => simp only [Arg.node, Option.map, sz_node, sz_cons, sz_nil, sz_optNode, sz_some, sz_tok, sz_prod, sz_arg, sz_ref, Nat.add_zero]
theorem sz_argType (a : Arg) : sz a.type ≤ sz a := Nat.le_add_left _ _
theorem sz_stmtK (k : Kind) (n : Node) : sz (stmt k n) = sz n := by
  simp only [stmt, sz_value, sz_stmt, sz_node, sz_cons, sz_nil, Nat.add_zero]
theorem sz_stmtOrMoved (k : Kind) (o : Option Node) : sz (stmtOrMoved k o) = sz o := by
  cases o with
  | none => rfl
  | some n => exact sz_stmtK k n

end

/-! ## Lists with separators -/

section
variable [Sz α]

theorem sz_pop {p rest : Punctuated α} {x : Pair α} (h : p.pop = (some x, rest)) : sz p = sz rest + sz x := by
  obtain ⟨ps⟩ := p
  simp only [Punctuated.pop, Prod.mk.injEq] at h
  obtain ⟨h1, h2⟩ := h
  subst h2
  obtain ⟨h3, h4⟩ := List.getLast?_eq_some_iff.1 h1
  subst h4
  rw [sz_mk, sz_mk, List.dropLast_concat, sz_append, sz_cons, sz_nil, Nat.add_zero]

theorem sz_noTrailing (p : Punctuated α) : sz (noTrailing p) ≤ sz p := by
  unfold noTrailing
  split
  · rename_i v t rest h
    rw [sz_pop h, sz_push, sz_end, sz_punctuated]
    omega
  · exact Nat.le_refl _

theorem sz_pushPunctuated {p q : Punctuated α} {v : α} {t : TokRef} {u : Unit} (h : p.pushPunctuated v t = .returned u q) :
    sz q = sz p + sz v + Wt.f t := by
  unfold Punctuated.pushPunctuated at h
  split at h
  · cases h
  · rename_i x rest hp
    split at h
    · cases h
    · rename_i hn
      cases h
      rw [sz_pop hp, sz_push, sz_push]
      cases x with
      | «end» w =>
        show _ + (sz w + Wt.f t) + sz v = _
        rw [sz_end]; omega
      | punctuated w q => cases hn

end

/-! ## Specifications -/

/-- The tokens that remain and those of the value, and the times the parser gave up, are not more than there were. -/
def Le [Sz α] (k : Nat) (l : List TokRef) (d : Nat) (v : α) (l' : List TokRef) (d' : Nat) : Prop :=
  mu l' + d' + sz v ≤ mu l + d + k

/-- The same, with one exception for failure. -/
def Lo [Sz α] [Bad α] (k : Nat) (l : List TokRef) (d : Nat) (v : α) (l' : List TokRef) (d' : Nat) : Prop :=
  mu l' + d' + sz v ≤ mu l + d + k + Bad.bad v

/-- The functions available for recursive calls. -/
structure RecC (s : Rec) : Prop where
  block : ∀ l d, l.length ≤ N → kwp s.block l d (Le 0 l d)
  expr : ∀ l d, l.length < N → kwp s.expr l d (Le 0 l d)
  primary : ∀ l d, l.length < N → kwp s.primary l d (Le 0 l d)
  climb : ∀ l d lhs p, l.length < N → kwp (s.climb lhs p) l d (Le (sz lhs) l d)
  type : ∀ l d, l.length < N → kwp s.type l d (Lo 0 l d)
  typeOrPack : ∀ l d, l.length < N → kwp s.typeOrPack l d (Lo 0 l d)

/-! ## Tactics -/

open Lean Elab Tactic Meta in
/-- Checks that the goal is about the parser function of the given name. -/
elab "k_head" n:ident : tactic => withMainContext do
  let e := (← instantiateMVars (← getMainTarget)).consumeMData
  unless e.isAppOfArity ``kwp 6 do throwError "not about a parser function"
  let some f := (e.getArg! 2).consumeMData.getAppFn.constName? | throwError "not a constant"
  unless f == (← realizeGlobalConstNoOverload n) do throwError "another function"

open Lean Elab Tactic Meta in
/-- Checks that the goal is about a parser function. -/
elab "k_goal" : tactic => withMainContext do
  let e := (← instantiateMVars (← getMainTarget)).consumeMData
  unless e.isAppOfArity ``kwp 6 do throwError "not about a parser function"

open Lean Elab Tactic Meta in
/-- Introduces the result of a call, by cases on the constructors of result types. -/
elab "k_intro" : tactic => withMainContext do
  let (v, g) ← (← getMainGoal).intro1
  let gs ← g.withContext do
    let ty ← whnfR (← instantiateMVars (← v.getType))
    if ty.isAppOf ``Res || ty.isAppOf ``Option || ty.isConstOf ``Default || ty.isConstOf ``ParamRes || ty.isConstOf ``TableEnd ||
        ty.isConstOf ``CtorRes || ty.isConstOf ``Params || ty.isConstOf ``ElseIfs then
      return (← g.cases v).toList.map (·.mvarId)
    else return [g]
  let gs ← gs.mapM fun g => do return (← g.introN 4).2
  replaceMainGoal gs

/-- Unfolds sizes. -/
macro "ksz" : tactic => `(tactic| simp only [Le, Lo, sz_ref, sz_tok, sz_nil, sz_cons, sz_append, sz_node, sz_nodeNone, sz_nodeSome, sz_none,
  sz_some, sz_prod, sz_end, sz_punctuated, sz_pairNew, sz_new, sz_push, sz_value, sz_moved, sz_notFound, sz_name, sz_blk, sz_blkEmpty, sz_arg,
  sz_preExpr, sz_preName, sz_stmt, sz_last, sz_absent, sz_present, sz_defaultMoved, sz_param, sz_paramMoved, sz_paramNotFound, sz_err, sz_done,
  sz_fields, sz_array, sz_field, sz_stop, sz_ctorField, sz_ctorDone, sz_ctorUnfinished, sz_paramsDone, sz_paramsUnfinished, sz_elseIfsDone,
  sz_elseIfsUnfinished, sz_suffix, sz_suffixEta, sz_span, sz_optTok, sz_optNode, sz_vec, sz_optVec, sz_punct, sz_stmtNode, sz_blkNode, sz_preNode,
  sz_argNode, sz_stmtK, sz_stmtOrMoved, bad_moved, bad_notFound, bad_value, bad_none, bad_some, bad_err, bad_done, bad_fields, bad_array,
  bad_stopErr, bad_stop, bad_field, Option.map] at *)

/-- Closes a goal about sizes. -/
macro "kfin" : tactic => `(tactic| first | (ksz; omega) | (repeat cases ‹_ × _›); ksz; omega)

/-- One step: use the specification of the function at the front. -/
syntax "kspec" : tactic
macro_rules | `(tactic| kspec) => `(tactic| fail "no specification")

/-- One step through a parser function. -/
macro "kstep" : tactic => `(tactic| (first
  | (with_reducible (first
    | (k_head Pure.pure; refine kwp_pure ?_)
    | (k_head Bind.bind; refine kwp_bind ?_)
    | (k_head ite; refine kwp_ite (fun _ => ?_) (fun _ => ?_))
    | (k_head panic; exact kwp_panic)
    | (k_head diverge; exact kwp_diverge)
    | (k_head giveUp; refine kwp_giveUp ?_)
    | (k_head tokenError; exact kwp_tokenError)
    | (k_head tokenErrorRanged; exact kwp_tokenErrorRanged)
    | (k_head current; refine kwp_current (fun _ => ?_))
    | (k_head take; refine kwp_take (fun _ _ _ _ _ _ _ => ?_))
    | (k_head consume; refine kwp_consume (fun _ _ _ _ _ _ _ => ?_) (fun _ => ?_))
    | (k_head takeIf; refine kwp_takeIf (fun _ _ _ _ _ _ _ => ?_) (fun _ => ?_))
    | (k_head consumeIf; refine kwp_consumeIf (fun _ _ _ _ _ _ _ => ?_) ?_)
    | (k_head consumeIfAny; refine kwp_consumeIfAny (fun _ _ _ _ _ _ _ => ?_) ?_)
    | (k_head FM.Parser.require; refine kwp_require (fun _ _ _ _ _ _ _ => ?_))
    | (k_head requireWithToken; refine kwp_requireWithToken (fun _ _ _ _ _ _ _ => ?_))
    | (k_head requireWithRange; refine kwp_requireWithRange (fun _ _ _ _ _ _ _ => ?_))
    | (k_head requireOr; refine kwp_requireOr (fun _ _ _ _ _ _ _ => ?_))
    | (k_head currentIs; refine kwp_currentIs (fun _ => ?_))
    | (k_head peekIs; refine kwp_peekIs (fun _ => ?_))
    | (k_head fuel; refine kwp_fuel (fun _ => ?_))
    | (k_head currentUnwrap; refine kwp_currentUnwrap (fun _ => ?_))
    | (k_head firstToken; refine kwp_firstToken (fun _ => ?_))
    | (k_head lastToken; refine kwp_lastToken (fun _ => ?_))
    | (k_head basicSymbol; refine kwp_basicSymbol (fun _ _ => ?_))
    | (k_head Rec.block; refine kcall (RecC.block (by assumption) _ _ (by omega)) ?_; k_intro)
    | (k_head Rec.expr; refine kcall (RecC.expr (by assumption) _ _ (by omega)) ?_; k_intro)
    | (k_head Rec.primary; refine kcall (RecC.primary (by assumption) _ _ (by omega)) ?_; k_intro)
    | (k_head Rec.climb; refine kcall (RecC.climb (by assumption) _ _ _ _ (by omega)) ?_; k_intro)
    | (k_head Rec.type; refine kcall (RecC.type (by assumption) _ _ (by omega)) ?_; k_intro)
    | (k_head Rec.typeOrPack; refine kcall (RecC.typeOrPack (by assumption) _ _ (by omega)) ?_; k_intro)
    | kspec))
  | (k_goal; split)) <;> try dsimp only)

/-- All steps. -/
macro "ksteps" : tactic => `(tactic| ((try dsimp only); repeat' kstep))

/-- All steps and the goals at their ends. -/
macro "kall" : tactic => `(tactic| (ksteps <;> kfin))

/-- Use a specification of a function in `kspec`. -/
macro "kuse" n:ident t:term:max : command => `(command| macro_rules | `(tactic| kspec) => `(tactic| (k_head $n; refine kcall $t ?_; k_intro)))

/-! ## Lists -/

section
variable [Sz α]

theorem dropTrailing_cnt (m : String) (p : Punctuated α) : kwp (dropTrailing m p) l d (Le (sz p) l d) := by
  unfold dropTrailing
  split
  · exact kwp_bind kwp_tokenError
  · kall

theorem oneOrMoreLoop_cnt {parser : M (Res α)} {s : Symbol} (hp : ∀ l d, l.length < N → kwp parser l d (Le 0 l d)) :
    ∀ (m : Nat) (l : List TokRef) (d : Nat) (values : Punctuated α), l.length < N →
      kwp (oneOrMoreLoop parser s m values) l d (Le (sz values) l d)
  | 0, _, _, _, _ => kwp_diverge
  | m + 1, l, d, values, hl => by
    unfold oneOrMoreLoop
    refine kwp_bind (kcall (hp l d hl) fun v l' d' h1 h2 => ?_)
    cases v with
    | value v =>
      ksteps
      · exact kcall (oneOrMoreLoop_cnt hp m _ _ _ (by omega)) (fun _ _ _ _ _ => by kfin)
      · kfin
    | moved => kall
    | notFound => kall

theorem oneOrMore_cnt {parser : M (Res α)} {s : Symbol} (hp : ∀ l d, l.length < N → kwp parser l d (Le 0 l d)) (hl : l.length < N) :
    kwp (oneOrMore parser s) l d (Le 0 l d) := by
  unfold oneOrMore
  ksteps
  refine kcall (oneOrMoreLoop_cnt hp _ _ _ _ hl) (fun v l' d' h1 h2 => ?_)
  ksteps
  · kfin
  · refine kcall (dropTrailing_cnt _ _) (fun _ _ _ _ _ => ?_)
    kall

end

end FM.Parser.Count
