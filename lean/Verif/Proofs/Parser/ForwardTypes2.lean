import Verif.Proofs.Parser.ForwardTypes

/-! Helper lemmas: the parser accepts the table and function types of the grammar. -/

namespace FM.Parser.Forward
open FM.Spec FM.Parser FM.Parser.Clean

variable {c : Cfg} {α β : Type}

theorem flatten_first {n : Node} {u : TokRef} {l1 l : List TokRef} {t : TokRef} (h : n.flat = u :: l1) : n.flat ++ t :: l = u :: (l1 ++ t :: l) := by rw [h]; rfl

theorem single_variadic {n : Node} (h : single n = true) : variadic n = false := by
  simp only [single, Bool.and_eq_true_iff, Bool.not_eq_true'] at h
  exact h.1

/-! ## Tables -/

/-- The condition of `tableAccess`. -/
theorem access_cond {t : TokRef} : (t.isIdent && (t.token.display == c!"read" || t.token.display == c!"write")) = accessTok t := by
  have key : ∀ x y : Text, ((TokenType.identifier x == TokenType.identifier y) = (x == y)) := by
    intro x y
    rw [Bool.eq_iff_iff]
    simp
  rw [Bool.eq_iff_iff]
  cases h : t.token.type <;> simp [TokRef.isIdent, accessTok, tokenNamed, h, TokenType.kind, Token.display, TokenType.display]

section
variable {self : Rec}

theorem access_some {t u : TokRef} {l : List TokRef} (ht : Wrd t c!"read" ∨ Wrd t c!"write") (hu : is .colon u = false) :
    runs tableAccess (t :: u :: l) (some t) (u :: l) := by
  unfold tableAccess
  rw [currentIs_bind, access_cond]
  rw [if_pos (by rcases ht with h | h <;> simp [accessTok, tokenNamed, h])]
  rw [peekIs_bind, hu, if_neg Bool.false_ne_true, take_bind]
  exact runs_pure

theorem access_none {t : TokRef} {l : List TokRef} (ht : accessTok t = false) : runs tableAccess (t :: l) none (t :: l) := by
  unfold tableAccess
  rw [currentIs_bind, access_cond, ht, if_neg Bool.false_ne_true]
  exact runs_pure

theorem access_colon {t u : TokRef} {l : List TokRef} (hu : is .colon u = true) : runs tableAccess (t :: u :: l) none (t :: u :: l) := by
  unfold tableAccess
  rw [currentIs_bind]
  split
  · rw [peekIs_bind, hu, if_pos rfl]; exact runs_pure
  · exact runs_pure

theorem accessTok_sym {t : TokRef} {s : Symbol} (h : Sym t s) : accessTok t = false := by simp [accessTok, tokenNamed, h]
theorem accessTok_str {t : TokRef} (h : t.token.type.kind = .stringLiteral) : accessTok t = false := by
  cases h1 : t.token.type <;> simp [h1, TokenType.kind] at h <;> simp [accessTok, tokenNamed, h1]

variable (hs : RecF c self) (hl : c.luau = true)
include hs hl

theorem fieldValue_runs {ty : Node} {t : TokRef} {l : List TokRef} {m : String} (h : Fits c (.cat .typeInfo) ty) (h1 : single ty = true) (ht : FollowT ty t) :
    runs (fieldValue self m) (ty.flat ++ t :: l) (some ty) (t :: l) := by
  unfold fieldValue
  exact runs_bind (hs.type hl ty t l h h1 ht) runs_pure

/-- A field after its access modifier. -/
theorem tableField_runs {f : Node} (h : TypeFieldV c f) {fs : Punctuated Node} {hi : Bool} (hx : indexer f = true → hi = false) {t : TokRef} {l : List TokRef}
    (ht : ∀ ty, FollowT ty t) : runs (tableField self fs hi) (f.flat ++ t :: l) (.field f (hi || indexer f)) (t :: l) := by
  unfold tableField
  cases h with
  | @name o x u ty ho hn hu hty hsg =>
    refine runs_bind (a := o) (l1 := x :: u :: (ty.flat ++ t :: l)) ?_ ?_
    · cases o with
      | none => have : (Node.node .typeField [optTok none, .node .keyName [.tok x], .tok u, ty]).flat = x :: u :: ty.flat := by flat
                rw [this]; exact access_colon (is_iff.2 hu)
      | some a => have : (Node.node .typeField [optTok (some a), .node .keyName [.tok x], .tok u, ty]).flat = a :: x :: u :: ty.flat := by flat
                  rw [this]; exact access_some (ho a rfl) (is_nam hn)
    · rw [current_bind]
      dsimp only
      rw [if_neg (by simp [is_nam hn]), if_neg (by simp [is_nam hn])]
      unfold plainField
      refine runs_bind (a := false) (l1 := x :: u :: (ty.flat ++ t :: l)) ?_ ?_
      · split
        · rw [if_pos (isIdent_nam hn), peekIs_bind, is_iff.2 hu]; exact runs_pure
        · exact runs_pure
      · rw [if_neg Bool.false_ne_true, parseName_pos hn]
        dsimp only
        rw [require_pos (is_iff.2 hu)]
        refine runs_bind (fieldValue_runs hs hl hty hsg (ht ty)) ?_
        rw [show indexer (.node .typeField [optTok o, .node .keyName [.tok x], .tok u, ty]) = false from rfl, Bool.or_false]
        exact runs_pure
  | @string o a b x u ty ho ha hb hx' hu hty hsg =>
    refine runs_bind (a := o) (l1 := a :: x :: b :: u :: (ty.flat ++ t :: l)) ?_ ?_
    · cases o with
      | none => have : (Node.node .typeField [optTok none, .node .keyIndex [span a b, .node .tyString [.tok x]], .tok u, ty]).flat = a :: x :: b :: u :: ty.flat := by flat
                rw [this]; exact access_none (accessTok_sym ha)
      | some m => have : (Node.node .typeField [optTok (some m), .node .keyIndex [span a b, .node .tyString [.tok x]], .tok u, ty]).flat = m :: a :: x :: b :: u :: ty.flat := by flat
                  rw [this]; exact access_some (ho m rfl) (by simp [is_sym ha])
    · rw [current_bind]
      dsimp only
      rw [if_neg (by simp [is_sym ha]), if_pos (is_iff.2 ha), peekIs_bind, isString_iff.2 hx', if_pos rfl]
      refine runs_bind (a := some (.node .typeField [optTok o, .node .keyIndex [span a b, .node .tyString [.tok x]], .tok u, ty])) (l1 := t :: l) ?_ ?_
      · unfold stringKeyField
        rw [take_bind, take_bind, require_pos (is_iff.2 hb)]
        dsimp only
        rw [require_pos (is_iff.2 hu)]
        refine runs_bind (hs.type hl ty t l hty hsg (ht ty)) ?_
        exact runs_pure
      · rw [show indexer (.node .typeField [optTok o, .node .keyIndex [span a b, .node .tyString [.tok x]], .tok u, ty]) = false from rfl, Bool.or_false]
        exact runs_pure
  | @index o a b u k ty ho ha hb hk hk1 hk2 hk3 hu hty hsg =>
    obtain ⟨v, l1, hv⟩ := ty_first hl hk (single_variadic hk1)
    have hstr : v.isString = false := by
      simp only [startsTok, hv.flat, List.head?_cons, Option.any_some] at hk2
      simpa [TokRef.isString] using hk2
    refine runs_bind (a := o) (l1 := a :: (k.flat ++ b :: u :: (ty.flat ++ t :: l))) ?_ ?_
    · cases o with
      | none => have : (Node.node .typeField [optTok none, .node .keyIndex [span a b, k], .tok u, ty]).flat ++ t :: l = a :: (k.flat ++ b :: u :: (ty.flat ++ t :: l)) := by flat
                rw [this]; exact access_none (accessTok_sym ha)
      | some m => have : (Node.node .typeField [optTok (some m), .node .keyIndex [span a b, k], .tok u, ty]).flat ++ t :: l = m :: a :: (k.flat ++ b :: u :: (ty.flat ++ t :: l)) := by flat
                  rw [this]; exact access_some (ho m rfl) (by simp [is_sym ha])
    · rw [current_bind]
      dsimp only
      rw [if_neg (by simp [is_sym ha]), if_pos (is_iff.2 ha)]
      rw [flatten_first hv.flat, peekIs_bind, hstr, if_neg Bool.false_ne_true, ← flatten_first hv.flat]
      have hidx : indexer (.node .typeField [optTok o, .node .keyIndex [span a b, k], .tok u, ty]) = true := by simp [indexer, hk3]
      have := hx hidx
      subst this
      refine runs_bind (a := some (.node .typeField [optTok o, .node .keyIndex [span a b, k], .tok u, ty])) (l1 := t :: l) ?_ ?_
      · unfold indexerField
        rw [take_bind]
        refine runs_bind (fieldValue_runs hs hl hk hk1 (follow_sym hb rfl k)) ?_
        dsimp only
        rw [require_pos (is_iff.2 hb)]
        dsimp only
        rw [require_pos (is_iff.2 hu)]
        refine runs_bind (fieldValue_runs hs hl hty hsg (ht ty)) ?_
        dsimp only
        rw [if_neg Bool.false_ne_true]
        exact runs_pure
      · rw [hidx]
        exact runs_pure

/-- How the loop ends: without a separator, or at the brace after one. -/
def tableEnd (ps : List (Pair Node)) (b : TokRef) (fs : Punctuated Node) : TableEnd :=
  match ps.getLast? with
  | some (.end _) => .fields fs
  | _ => .done b fs

omit hs hl in
theorem tableClose_runs {fs : Punctuated Node} {hi : Bool} {b : TokRef} {l : List TokRef} (hb : Sym b .rightBrace) :
    runs (tableField self fs hi) (b :: l) (.stop (.done b fs)) l := by
  unfold tableField
  refine runs_bind (access_none (accessTok_sym hb)) ?_
  rw [current_bind]
  dsimp only
  rw [if_pos (is_iff.2 hb)]
  rw [if_neg (by simp), take_bind]
  exact runs_pure

theorem typeTableLoop_runs {b : TokRef} {l : List TokRef} (hb : Sym b .rightBrace) : ∀ {ps : List (Pair Node)}, PEl (TypeFieldV c) [.comma, .semicolon] ⟨ps⟩ →
    (∀ p ∈ ps.dropLast, p.punctuation ≠ none) → ∀ n acc hi, ((ps.map Pair.value).filter indexer).length ≤ (if hi then 0 else 1) →
    ∃ e l', runs (typeTableLoop self n acc hi) (yield ps ++ b :: l) e l' ∧
      (e = .done b ⟨acc.pairs ++ ps⟩ ∧ l' = l ∨ e = .fields ⟨acc.pairs ++ ps⟩ ∧ l' = b :: l) := by
  intro ps
  induction ps with
  | nil =>
    intro _ _ n acc hi _
    refine ⟨_, _, ?_, .inl ⟨rfl, rfl⟩⟩
    cases n with
    | zero => exact runs_diverge
    | succ n =>
      unfold typeTableLoop
      rw [yield_nil, List.nil_append, List.append_nil]
      refine runs_bind (tableClose_runs hb) ?_
      exact runs_pure
  | cons p ps ih =>
    intro h1 h2 n acc hi h3
    have hx : indexer p.value = true → hi = false := by
      intro h
      simp only [List.map_cons, List.filter_cons, h, if_true, List.length_cons] at h3
      cases hi with
      | false => rfl
      | true => simp at h3
    have h3' : ((ps.map Pair.value).filter indexer).length ≤ (if (hi || indexer p.value) then 0 else 1) := by
      cases hp : indexer p.value with
      | false =>
        simp only [List.map_cons, List.filter_cons, hp] at h3
        simpa using h3
      | true =>
        simp only [List.map_cons, List.filter_cons, hp, if_true, List.length_cons, hx hp] at h3
        simp only [Bool.or_true, if_true]
        rw [if_neg Bool.false_ne_true] at h3
        omega
    have hp := h1 p (.head _)
    cases p with
    | «end» f =>
      have hnil : ps = [] := by
        cases ps with
        | nil => rfl
        | cons q ps => exact absurd rfl (h2 (.end f) (.head _))
      subst hnil
      refine ⟨_, _, ?_, .inr ⟨rfl, rfl⟩⟩
      cases n with
      | zero => exact runs_diverge
      | succ n =>
        unfold typeTableLoop
        simp only [yield_cons, yield_nil, yield_end, List.append_nil, yield_node]
        refine runs_bind (tableField_runs hs hl hp.1 hx fun ty => follow_sym hb rfl ty) ?_
        dsimp only
        rw [takeIf_neg (by simp [is_sym hb])]
        exact runs_pure
    | punctuated f u =>
      have hu : is .comma u = true ∨ is .semicolon u = true := by
        obtain ⟨s, hs', hu⟩ := hp.2 u rfl
        simp only [List.mem_cons, List.not_mem_nil, or_false] at hs'
        rcases hs' with rfl | rfl
        · exact .inl (is_iff.2 hu)
        · exact .inr (is_iff.2 hu)
      have hfo : ∀ ty, FollowT ty u := fun ty => by
        rcases hu with hu | hu
        · exact follow_sym (is_iff.1 hu) rfl ty
        · exact follow_sym (is_iff.1 hu) rfl ty
      cases n with
      | zero => exact ⟨_, _, runs_diverge, .inl ⟨rfl, rfl⟩⟩
      | succ n =>
        obtain ⟨e, l', h4, h5⟩ := ih (fun x hx => h1 x (.tail _ hx)) (fun q hq => h2 q (by
          cases ps with
          | nil => cases hq
          | cons q' ps => exact .tail _ hq)) n (acc.push (.punctuated f u)) _ h3'
        refine ⟨e, l', ?_, by simpa [Punctuated.push] using h5⟩
        unfold typeTableLoop
        rw [yield_cons, yield_punctuated, List.append_assoc, List.append_assoc, yield_node, List.singleton_append]
        refine runs_bind (tableField_runs hs hl hp.1 hx hfo) ?_
        dsimp only
        rw [takeIf_pos (by rcases hu with hu | hu <;> simp [hu])]
        exact h4

theorem array_runs {a b : TokRef} {o : Option TokRef} {ty : Node} (hb : Sym b .rightBrace) (ho : AccessF o) (hty : Fits c (.cat .typeInfo) ty) (hsg : single ty = true)
    (hx : o = none → startsTok accessTok ty = false) {l : List TokRef} :
    runs (expectTypeTable self c a) (yield o ++ ty.flat ++ b :: l) (some (.node .tyArray [span a b, optTok o, ty])) l := by
  obtain ⟨u, l1, hu⟩ := ty_first hl hty (single_variadic hsg)
  unfold expectTypeTable
  rw [fuel_bind]
  refine runs_bind (a := .array o ty) (l1 := b :: l) ?_ ?_
  · unfold typeTableLoop
    refine runs_bind (a := .stop (.array o ty)) (l1 := b :: l) ?_ runs_pure
    unfold tableField
    refine runs_bind (a := o) (l1 := ty.flat ++ b :: l) ?_ ?_
    · rw [List.append_assoc, flatten_first hu.flat]
      cases o with
      | none =>
        have := hx rfl
        simp only [startsTok, hu.flat, List.head?_cons, Option.any_some] at this
        exact access_none this
      | some m => exact access_some (ho m rfl) (hu.head.is (by decide))
    · rw [flatten_first hu.flat, current_bind]
      dsimp only
      rw [if_neg (by simp [hu.head.is (s := .rightBrace) (by decide)]), if_neg (by simp [hu.head.is (s := .leftBracket) (by decide)])]
      unfold plainField
      refine runs_bind (a := true) (l1 := u :: (l1 ++ b :: l)) ?_ ?_
      · rw [if_pos (show ((Punctuated.new (α := Node)).isEmpty && !false) = true from rfl)]
        split
        · rename_i h
          rcases hu.second (isIdent_iff.1 h) with rfl | ⟨v, l2, rfl, -, hv⟩
          · rw [List.nil_append, peekIs_bind, show is .colon b = false by simp [is_sym hb]]
            exact runs_pure
          · rw [List.cons_append, peekIs_bind, hv]
            exact runs_pure
        · exact runs_pure
      · rw [if_pos rfl, ← flatten_first hu.flat]
        refine runs_bind (fieldValue_runs hs hl hty hsg (follow_sym hb rfl ty)) ?_
        exact runs_pure
  · dsimp only
    rw [requireOr_pos (is_iff.2 hb)]
    exact runs_pure

theorem typeTable_runs {a b : TokRef} {fs : Punctuated Node} (hb : Sym b .rightBrace) (h1 : PEl (TypeFieldV c) [.comma, .semicolon] fs) (h2 : Sep .trailing fs)
    (h3 : ((fs.pairs.map Pair.value).filter indexer).length ≤ 1) {l : List TokRef} :
    runs (expectTypeTable self c a) (yield fs ++ b :: l) (some (.node .tyTable [span a b, punct fs])) l := by
  unfold expectTypeTable
  rw [fuel_bind]
  obtain ⟨e, l', h4, h5⟩ := typeTableLoop_runs hs hl hb (l := l) (ps := fs.pairs) h1 h2.1 ((yield fs ++ b :: l).length + 1) .new false (by simpa using h3)
  refine runs_bind h4 ?_
  rcases h5 with ⟨rfl, rfl⟩ | ⟨rfl, rfl⟩
  · exact runs_pure
  · dsimp only
    rw [requireOr_pos (is_iff.2 hb)]
    exact runs_pure

/-! ## Function types -/

omit hs in
theorem argumentName_runs {a : Arg} (h : ArgP c a) (hv : variadic a.type = false) {t : TokRef} {l : List TokRef} (ht : is .colon t = false) :
    ∃ u l', yield a ++ t :: l = u :: l' ∧ is .rightParen u = false ∧ runs (argumentName u) (u :: l') a.name (a.type.flat ++ t :: l) := by
  obtain ⟨u, l1, hu⟩ := ty_first hl h.type hv
  obtain ⟨o, ty⟩ := a
  cases o with
  | none =>
    refine ⟨u, l1 ++ t :: l, flatten_first hu.flat, hu.head.is (by decide), ?_⟩
    rw [show ty.flat ++ t :: l = u :: (l1 ++ t :: l) from flatten_first hu.flat]
    unfold argumentName
    split
    · rename_i h
      rcases hu.second (isIdent_iff.1 h) with rfl | ⟨v, l2, rfl, -, hv⟩
      · rw [List.nil_append, peekIs_bind, ht]
        exact runs_pure
      · rw [List.cons_append, peekIs_bind, hv]
        exact runs_pure
    · exact runs_pure
  | some p =>
    obtain ⟨x, y⟩ := p
    obtain ⟨h1, h2⟩ := h.name (x, y) rfl
    refine ⟨x, y :: (ty.flat ++ t :: l), by simp [yield_arg], is_nam h1, ?_⟩
    unfold argumentName
    rw [if_pos (isIdent_nam h1), peekIs_bind, is_iff.2 h2, if_pos rfl, take_bind, take_bind]
    exact runs_pure

omit hs in
theorem argPack_none {a : Arg} (h : ArgP c a) (hv : variadic a.type = false) {t : TokRef} {l : List TokRef} (ht : is .ellipsis t = false) :
    runs (parseTypePack self) (yield a ++ t :: l) .notFound (yield a ++ t :: l) := by
  obtain ⟨o, ty⟩ := a
  cases o with
  | none => exact noPack_runs hl h.type hv ht
  | some p =>
    obtain ⟨x, y⟩ := p
    obtain ⟨h1, h2⟩ := h.name (x, y) rfl
    have : yield (⟨some (x, y), ty⟩ : Arg) ++ t :: l = x :: y :: (ty.flat ++ t :: l) := by simp [yield_arg]
    rw [this]
    unfold parseTypePack
    simp only [current_bind, is_nam h1, isIdent_nam h1, Bool.false_eq_true, if_false, if_true, peekIs_bind, is_sym h2]
    exact runs_pure

omit hs in
theorem typeArgs_first {ps : List (Pair Arg)} (h : ArgsF c ps) : ∃ u l, yield ps = u :: l ∧ is .rightParen u = false := by
  have key : ∀ a : Arg, ArgP c a → ∃ u l, yield a = u :: l ∧ is .rightParen u = false := by
    intro a h
    obtain ⟨u, l1, hu, -, hu'⟩ := pack_first hl h.type
    obtain ⟨o, ty⟩ := a
    cases o with
    | none => exact ⟨u, l1, hu, hu'⟩
    | some p => exact ⟨p.1, p.2 :: ty.flat, by simp [yield_arg]; rfl, is_nam (h.name p rfl).1⟩
  cases h with
  | last h1 => obtain ⟨u, l, h2, h3⟩ := key _ h1; exact ⟨u, l, by simp [h2], h3⟩
  | cons h1 => obtain ⟨u, l, h2, h3⟩ := key _ h1; exact ⟨u, _, by simp [h2]; rfl, h3⟩

theorem typeArgsLoop_runs {ps : List (Pair Arg)} (h : ArgsF c ps) {t : TokRef} {l : List TokRef} (ht : Sym t .rightParen) : ∀ n acc,
    runs (typeArgsLoop self n acc) (yield ps ++ t :: l) (some ⟨acc.pairs ++ ps⟩) (t :: l) := by
  induction h with
  | @last a ha hv =>
    intro n acc
    cases n with
    | zero => exact runs_diverge
    | succ n =>
      unfold typeArgsLoop
      simp only [yield_cons, yield_nil, yield_end, List.append_nil]
      rcases hv with hv | ⟨hn, hv⟩
      · obtain ⟨u, l1, h1, h2, h3⟩ := argumentName_runs hl ha (single_variadic hv) (t := t) (l := l) (by simp [is_sym ht])
        rw [h1, currentIs_bind, h2, if_neg Bool.false_ne_true, ← h1]
        refine runs_bind (argPack_none hl ha (single_variadic hv) (by simp [is_sym ht])) ?_
        rw [h1]
        dsimp only
        rw [current_bind]
        dsimp only
        refine runs_bind h3 ?_
        refine runs_bind (hs.type hl a.type t l ha.type hv (follow_sym ht rfl _)) ?_
        dsimp only
        rw [consumeIf_neg (by simp [is_sym ht])]
        exact runs_pure
      · obtain ⟨u, l1, h1, -, h2⟩ := pack_first hl ha.type
        obtain ⟨o, ty⟩ := a
        cases hn
        have : yield (⟨none, ty⟩ : Arg) = ty.flat := rfl
        rw [this, flatten_first h1, currentIs_bind, h2, if_neg Bool.false_ne_true, ← flatten_first h1]
        refine runs_bind (pack_runs hs hl ha.type hv (follow_sym ht rfl ty).pack) ?_
        exact runs_pure
  | @cons a u ps ha hv hu hps ih =>
    intro n acc
    cases n with
    | zero => exact runs_diverge
    | succ n =>
      obtain ⟨v, l2, h4, h5⟩ := typeArgs_first hl hps
      unfold typeArgsLoop
      rw [yield_cons, yield_punctuated, List.append_assoc, List.append_assoc, List.singleton_append]
      obtain ⟨w, l1, h1, h2, h3⟩ := argumentName_runs hl ha (single_variadic hv) (t := u) (l := yield ps ++ t :: l) (by simp [is_sym hu])
      rw [h1, currentIs_bind, h2, if_neg Bool.false_ne_true, ← h1]
      refine runs_bind (argPack_none hl ha (single_variadic hv) (by simp [is_sym hu])) ?_
      rw [h1]
      dsimp only
      rw [current_bind]
      dsimp only
      refine runs_bind h3 ?_
      refine runs_bind (hs.type hl a.type u _ ha.type hv (follow_sym hu rfl _)) ?_
      dsimp only
      rw [consumeIf_pos (is_iff.2 hu)]
      dsimp only
      rw [show yield ps ++ t :: l = v :: (l2 ++ t :: l) by rw [h4]; rfl, currentIs_bind, h5, if_neg Bool.false_ne_true, show v :: (l2 ++ t :: l) = yield ps ++ t :: l by rw [h4]; rfl]
      have := ih n (acc.push (.punctuated a u))
      simpa [Punctuated.push] using this

theorem parens_runs {args : Punctuated Arg} (h : args = .new ∨ ArgsF c args.pairs) {a b : TokRef} (ha : Sym a .leftParen) (hb : Sym b .rightParen) {style : Parser.Style} {force : Bool}
    {g r : Option Node} {l l' : List TokRef} (hr : runs (functionTypeRest self style force g a b args) l r l') :
    runs (functionTypeParens self style force g) (a :: (yield args ++ b :: l)) r l' := by
  unfold functionTypeParens
  rw [require_pos (is_iff.2 ha)]
  dsimp only
  rw [fuel_bind]
  refine runs_bind (a := some args) (l1 := b :: l) ?_ ?_
  · rcases h with rfl | h
    · unfold typeArgsLoop
      rw [yield_new, List.nil_append, currentIs_bind, is_iff.2 hb, if_pos rfl]
      exact runs_pure
    · exact typeArgsLoop_runs hs hl h hb _ _
  · dsimp only
    rw [require_pos (is_iff.2 hb)]
    exact hr

omit hs hl in
theorem tuple_rest {args : Punctuated Arg} (hn : ∀ x ∈ args.pairs.map Pair.value, x.name = none) {a b : TokRef} {style : Parser.Style} {t : TokRef} {l : List TokRef} (ht : is .thinArrow t = false)
    (hst : style = .default → pack? (.node .tyTuple [span a b, punct ⟨args.pairs.map (Pair.map Arg.type)⟩]) = false) {g : Option Node} :
    runs (functionTypeRest self style false g a b args) (t :: l) (some (.node .tyTuple [span a b, punct ⟨args.pairs.map (Pair.map Arg.type)⟩])) (t :: l) := by
  unfold functionTypeRest
  dsimp only
  have hf : (args.pairs.any fun p => p.value.name.isSome) = false := by
    rw [List.any_eq_false]
    intro p hp
    rw [hn p.value (List.mem_map_of_mem hp)]
    exact Bool.false_ne_true
  rw [hf, Bool.or_false]
  refine runs_bind (a := true) (l1 := t :: l) ?_ ?_
  · rw [if_neg Bool.false_ne_true, currentIs_bind, ht, if_neg Bool.false_ne_true]
    cases style with
    | allowPack => rw [show (singleType args || Parser.Style.allowPack == .allowPack) = true by simp]; exact runs_pure
    | default =>
      have h1 := hst rfl
      simp only [pack?, elements_punct, pair_value_map] at h1
      have h2 : singleType args = true := by
        unfold singleType
        obtain ⟨ps⟩ := args
        match ps, h1 with
        | [], h1 => cases h1
        | [p], h1 =>
          dsimp only [List.map] at h1 ⊢
          cases hp : p.value.type with
          | tok t => rfl
          | node k cs => rw [hp] at h1; simpa [isOne, kindOf, hasKind, BEq.comm] using h1
        | p :: q :: ps, h1 => cases h1
      rw [h2]
      exact runs_pure
  · rw [if_pos rfl]
    exact runs_pure

theorem callback_rest {args : Punctuated Arg} {a b u : TokRef} {style : Parser.Style} {force : Bool} {g : Option Node} {r : Node} {t : TokRef} {l : List TokRef}
    (hu : Sym u .thinArrow) (hr : Fits c (.cat .typeInfo) r) (hn : led r = false) (ht : FollowP r t) :
    runs (functionTypeRest self style force g a b args) (u :: (r.flat ++ t :: l))
      (some (.node .tyCallback [optNode g, span a b, punct ⟨args.pairs.map (Pair.map Arg.node)⟩, .tok u, r])) (t :: l) := by
  unfold functionTypeRest
  dsimp only
  refine runs_bind (a := false) (l1 := u :: (r.flat ++ t :: l)) ?_ ?_
  · split
    · exact runs_pure
    · rw [currentIs_bind, is_iff.2 hu, if_pos rfl]
      exact runs_pure
  · rw [if_neg Bool.false_ne_true, require_pos (is_iff.2 hu)]
    refine runs_bind (returnType_runs hs hl hr hn ht) ?_
    exact runs_pure

end

end FM.Parser.Forward
