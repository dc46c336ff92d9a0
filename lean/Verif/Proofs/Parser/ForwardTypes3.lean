import Verif.Proofs.Parser.ForwardTypes2

/-! Helper lemmas: the parser accepts the types of the grammar. -/

namespace FM.Parser.Forward
open FM.Spec FM.Parser FM.Parser.Clean

variable {c : Cfg} {α β : Type}

/-- A member of a union is a simple type and question marks. -/
structure Split (rec_ : Rec) (c : Cfg) (m b : Node) (qs : List TokRef) : Prop where
  flat : m.flat = b.flat ++ qs
  view : TyV c b
  variadic : variadic b = false
  plain : isOne [.tyUnion, .tyIntersection, .tyOptional] b = false
  list : list? b = false
  first : firstType m = b
  next : ∀ q l, qs = q :: l → Sym q .questionMark
  closed : qs ≠ [] → openCallback b = false
  whole : qs = [] → m = b
  bare : isOne [.tyOptional] m = false → qs = []
  loop : ∀ n (x : Suffix) t l r l', x.isIntersection = false ∨ qs = [] →
    (∀ n', runs (suffixLoop rec_ c n' { x with isUnion := x.isUnion || !qs.isEmpty } (some m)) (t :: l) r l') →
    runs (suffixLoop rec_ c n x (some b)) (qs ++ t :: l) r l'

/-! ## Simple types -/

theorem typeof_cond {t : TokRef} (ht : Nam t) : (t.token.display == c!"typeof") = tokenNamed c!"typeof" t := by
  obtain ⟨x, h⟩ := ht
  rw [Bool.eq_iff_iff]
  simp [tokenNamed, h, Token.display, TokenType.display]

section
variable {self : Rec} (hs : RecF c self) (hl : c.luau = true)
include hs hl

theorem function_runs {ty : Node} {style : Parser.Style} {t : TokRef} {l : List TokRef} (h : TyV c ty) (hk : isOne [.tyTuple, .tyCallback] ty = true)
    (hst : style = .default → pack? ty = false) (hr : FollowR ty t) (ho : openCallback ty = true → extends_ t = false) :
    ∃ u l1, ty.flat ++ t :: l = u :: l1 ∧ (Sym u .leftParen ∨ Sym u .lessThan) ∧ runs (expectFunctionType self c style) (ty.flat ++ t :: l) (some ty) (t :: l) := by
  unfold expectFunctionType
  cases h <;> first | (cases hk; done) | skip
  case callback g a b u args r h1 h2 h3 h4 h5 h6 h7 =>
    have e1 : yield (⟨args.pairs.map (Pair.map Arg.node)⟩ : Punctuated Node) = yield args :=
      yield_map fun x _ => flat_arg x.value
    have hp : FollowP r t := ⟨ho, hr.dot, hr.arrow, hr.ellipsis, fun h => hr.less (by simpa only [endsName] using h)⟩
    cases g with
    | none =>
      have hf : (Node.node .tyCallback [optNode none, span a b, punct ⟨args.pairs.map (Pair.map Arg.node)⟩, .tok u, r]).flat ++ t :: l = a :: (yield args ++ b :: u :: (r.flat ++ t :: l)) := by flat; exact e1
      rw [hf]
      refine ⟨_, _, rfl, .inl h2, ?_⟩
      rw [currentIs_bind, show is .lessThan a = false by simp [is_sym h2]]
      refine runs_bind (genericList_none (by simp [is_sym h2])) ?_
      exact parens_runs hs hl h4 h2 h3 (callback_rest hs hl h5 h6 h7 hp)
    | some m =>
      obtain ⟨h8, h9⟩ := h1 m rfl
      have hf : (Node.node .tyCallback [optNode (some m), span a b, punct ⟨args.pairs.map (Pair.map Arg.node)⟩, .tok u, r]).flat ++ t :: l = m.flat ++ a :: (yield args ++ b :: u :: (r.flat ++ t :: l)) := by flat; exact e1
      rw [hf]
      obtain ⟨-, x, y, ps, rfl, h10, -⟩ := view_genericDecl h8
      have hf' : (Node.node .genericDecl [span x y, punct ⟨ps⟩]).flat = x :: (yield ps ++ [y]) := by flat
      refine ⟨x, _, flatten_first hf', .inr h10, ?_⟩
      rw [flatten_first hf', currentIs_bind, is_iff.2 h10, ← flatten_first hf']
      refine runs_bind (genericList_runs hs hl h8 fun _ => h9) ?_
      exact parens_runs hs hl h4 h2 h3 (callback_rest hs hl h5 h6 h7 hp)
  case tuple a b args h1 h2 h3 h4 =>
    have hf : (Node.node .tyTuple [span a b, punct ⟨args.pairs.map (Pair.map Arg.type)⟩]).flat ++ t :: l = a :: (yield args ++ b :: t :: l) := by
      have : yield (⟨args.pairs.map (Pair.map Arg.type)⟩ : Punctuated Node) = yield args := by
        have key : ∀ ps : List (Pair Arg), (∀ x ∈ ps.map Pair.value, x.name = none) → yield (ps.map (Pair.map Arg.type)) = yield ps := by
          intro ps
          induction ps with
          | nil => intro _; rfl
          | cons p ps ih =>
            intro h
            rw [List.map_cons, yield_cons, yield_cons, ih fun x hx => h x (.tail _ hx)]
            have := h p.value (.head _)
            cases p with
            | «end» a => obtain ⟨o, ty⟩ := a; cases this; rfl
            | punctuated a u => obtain ⟨o, ty⟩ := a; cases this; rfl
        exact key args.pairs h4
      flat
      exact this
    rw [hf]
    refine ⟨_, _, rfl, .inl h1, ?_⟩
    rw [currentIs_bind, show is .lessThan a = false by simp [is_sym h1]]
    refine runs_bind (genericList_none (by simp [is_sym h1])) ?_
    exact parens_runs hs hl h3 h1 h2 (tuple_rest h4 hr.arrow hst)

theorem named_runs {ty : Node} {t : TokRef} {l : List TokRef} (h : TyV c ty) (hk : isOne [.tyBasic, .tyGeneric, .tyModule, .tyTypeof] ty = true)
    (hn : ∀ x, ty = .node .tyBasic [.tok x] → Nam x) (hr : FollowR ty t) : runs (nameType self c) (ty.flat ++ t :: l) (.value ty) (t :: l) := by
  unfold nameType
  cases h with
  | @name x h1 h2 =>
    rw [show (Node.node .tyBasic [.tok x]).flat ++ t :: l = x :: t :: l by flat, take_bind, typeof_cond h1, h2, if_neg Bool.false_ne_true, current_bind]
    dsimp only
    rw [if_neg (by simp [hr.dot]), if_neg]
    · exact runs_pure
    · have : endsName (.node .tyBasic [.tok x]) = true := by
        obtain ⟨y, hy⟩ := h1
        simp [endsName, hy, TokenType.kind]
      simp [hr.less this]
  | @generic x a b ts h1 h2 h3 h4 h5 =>
    rw [show (Node.node .tyGeneric [.tok x, span a b, punct ts]).flat ++ t :: l = x :: a :: (yield ts ++ b :: t :: l) by flat, take_bind, typeof_cond h1, h2, if_neg Bool.false_ne_true, current_bind]
    dsimp only
    rw [if_neg (by simp [is_sym h3]), if_pos (is_iff.2 h3), take_bind]
    refine runs_bind (genericTypeParams_runs hs hl h5 h4) ?_
    exact runs_pure
  | @module x d y h1 h2 h3 h4 =>
    rw [show (Node.node .tyModule [.tok x, .tok d, .node .idxBasic [.tok y]]).flat ++ t :: l = x :: d :: y :: t :: l by flat, take_bind, typeof_cond h1, h2, if_neg Bool.false_ne_true, current_bind]
    dsimp only
    rw [if_pos (is_iff.2 h3), take_bind]
    unfold moduleType
    rw [parseName_pos h4]
    dsimp only
    rw [consumeIf_neg (hr.less (by simp [endsName]))]
    exact runs_pure
  | @moduleGeneric x d y a b ts h1 h2 h3 h4 h5 h6 h7 =>
    rw [show (Node.node .tyModule [.tok x, .tok d, .node .idxGeneric [.tok y, span a b, punct ts]]).flat ++ t :: l = x :: d :: y :: a :: (yield ts ++ b :: t :: l) by flat,
      take_bind, typeof_cond h1, h2, if_neg Bool.false_ne_true, current_bind]
    dsimp only
    rw [if_pos (is_iff.2 h3), take_bind]
    unfold moduleType
    rw [parseName_pos h4]
    dsimp only
    rw [consumeIf_pos (is_iff.2 h5)]
    refine runs_bind (genericTypeParams_runs hs hl h7 h6) ?_
    exact runs_pure
  | @typeof x a b e h1 h2 h3 h4 =>
    rw [show (Node.node .tyTypeof [.tok x, span a b, e]).flat ++ t :: l = x :: a :: (e.flat ++ b :: t :: l) by flat, take_bind, typeof_cond ⟨_, h1⟩,
      show tokenNamed c!"typeof" x = true by simp [tokenNamed, h1], if_pos rfl]
    unfold typeofType
    rw [requireOr_pos (is_iff.2 h2)]
    refine runs_bind (hs.expr e b _ h4 (stop_sym h3 rfl e)) ?_
    dsimp only
    refine runs_bind (a := b) (l1 := t :: l) ?_ runs_pure
    rw [requireWithToken_pos (is_iff.2 h3)]
    exact runs_pure
  | nil h1 => exact absurd h1 (fun h => by obtain ⟨x, hx⟩ := hn _ rfl; rw [h] at hx; cases hx)
  | _ => cases hk

theorem simple_runs {ty : Node} {style : Parser.Style} {t : TokRef} {l : List TokRef} (h : TyV c ty) (hv : variadic ty = false)
    (hp : isOne [.tyUnion, .tyIntersection, .tyOptional] ty = false)
    (hst : style = .default → pack? ty = false) (hr : FollowR ty t) (ho : openCallback ty = true → extends_ t = false) :
    runs (parseSimpleType self c style) (ty.flat ++ t :: l) (.value ty) (t :: l) := by
  have named : ∀ u l1, ty.flat = u :: l1 → Nam u → isOne [.tyBasic, .tyGeneric, .tyModule, .tyTypeof] ty = true → (∀ x, ty = .node .tyBasic [.tok x] → Nam x) → runs (parseSimpleType self c style) (ty.flat ++ t :: l) (.value ty) (t :: l) := by
    intro u l1 hf hu hk hn
    have := named_runs hs hl h (l := l) hk hn hr
    rw [flatten_first hf] at this ⊢
    unfold parseSimpleType
    rw [current_bind]
    obtain ⟨x, hx⟩ := hu
    have hk : (u.token.type.kind == TokenKind.interpolatedString) = false := by rw [hx]; rfl
    have hst : u.isString = false := by simp [TokRef.isString, hx, TokenType.kind]
    simp only [is_nam ⟨x, hx⟩, isIdent_nam ⟨x, hx⟩, hk, hst, Bool.false_eq_true, if_false, if_true, Bool.or_self]
    exact this
  have braced : ∀ u l1, ty.flat ++ t :: l = u :: l1 → Sym u .leftBrace → runs (expectTypeTable self c u) l1 (some ty) (t :: l) →
      runs (parseSimpleType self c style) (ty.flat ++ t :: l) (.value ty) (t :: l) := by
    intro u l1 hf hu hrun
    rw [hf]
    unfold parseSimpleType
    rw [current_bind]
    have hk : (u.token.type.kind == TokenKind.interpolatedString) = false := by rw [hu]; rfl
    have hid : u.isIdent = false := by rw [TokRef.isIdent, hu]; rfl
    simp only [is_sym hu, isString_sym hu, hk, hid, Bool.false_eq_true, if_false, if_true, Bool.or_self, reduceCtorEq, decide_false, decide_true, take_bind]
    exact runs_bind hrun runs_pure
  have fn : isOne [.tyTuple, .tyCallback] ty = true → runs (parseSimpleType self c style) (ty.flat ++ t :: l) (.value ty) (t :: l) := by
    intro hk
    obtain ⟨u, l1, h1, h2, h3⟩ := function_runs hs hl h (l := l) hk hst hr ho
    rw [h1] at h3 ⊢
    unfold parseSimpleType
    rw [current_bind]
    rcases h2 with h2 | h2
    all_goals
      have hk : (u.token.type.kind == TokenKind.interpolatedString) = false := by rw [h2]; rfl
      have hid : u.isIdent = false := by rw [TokRef.isIdent, h2]; rfl
      simp only [is_sym h2, isString_sym h2, hk, hid, Bool.false_eq_true, if_false, if_true, Bool.or_self, reduceCtorEq, decide_false, decide_true, Bool.or_true, Bool.true_or]
      exact runs_bind h3 runs_pure
  cases h with
  | @array a b o ty h1 h2 h3 h4 h5 h6 =>
    refine braced a (yield o ++ ty.flat ++ b :: t :: l) (by cases o <;> flat) h1 ?_
    exact array_runs hs hl h2 h3 h4 h5 h6
  | @table a b fs h1 h2 h3 h4 h5 =>
    refine braced a (yield fs ++ b :: t :: l) (by flat) h1 ?_
    exact typeTable_runs hs hl h2 h3 h4 h5
  | name h1 => exact named _ _ (by flat; rfl) h1 rfl (by intro x h; cases h; exact h1)
  | generic h1 => exact named _ _ (by flat; rfl) h1 rfl nofun
  | module h1 => exact named _ _ (by flat; rfl) h1 rfl nofun
  | moduleGeneric h1 => exact named _ _ (by flat; rfl) h1 rfl nofun
  | typeof h1 => exact named _ _ (by flat; rfl) ⟨_, h1⟩ rfl nofun
  | tuple => exact fn rfl
  | callback => exact fn rfl
  | @nil x h1 =>
    rw [show (Node.node .tyBasic [.tok x]).flat ++ t :: l = x :: t :: l by flat]
    unfold parseSimpleType
    rw [current_bind]
    dsimp only
    rw [if_pos (is_iff.2 h1), take_bind]
    exact runs_pure
  | @string x h1 =>
    rw [show (Node.node .tyString [.tok x]).flat ++ t :: l = x :: t :: l by flat]
    unfold parseSimpleType
    rw [current_bind]
    dsimp only
    rw [if_neg (by simp [is_str h1]), if_neg (by simp [is_str h1]), if_pos (isString_iff.2 h1), take_bind]
    exact runs_pure
  | @boolean x h1 =>
    rw [show (Node.node .tyBoolean [.tok x]).flat ++ t :: l = x :: t :: l by flat]
    unfold parseSimpleType
    rw [current_bind]
    dsimp only
    rw [if_neg (by rcases h1 with h1 | h1 <;> simp [is_sym h1]), if_pos (by rcases h1 with h1 | h1 <;> simp [is_sym h1]), take_bind]
    exact runs_pure
  | pack => cases hv
  | variadic => cases hv
  | union => cases hp
  | intersection => cases hp
  | optional => cases hp

/-! ## Members -/

omit hs hl in
theorem firstType_plain {n : Node} (h : isOne [.tyUnion, .tyIntersection, .tyOptional] n = false) : firstType n = n := by
  unfold firstType
  split
  · cases h
  · cases h
  · cases h
  · rfl

omit hs in
theorem member_split (m : Node) : MemberF c m → ∃ b qs, Split self c m b qs := by
  induction m using Node.induct with
  | ht t => intro h; obtain ⟨k, cs, h, -⟩ := fits_cat h.fits; cases h
  | hn k cs ih =>
    intro h
    by_cases hk : k = .tyOptional
    · subst hk
      have hv := view_ty hl h.fits
      cases hv with
      | @optional ty q h1 h2 h3 =>
        obtain ⟨b, qs, hb⟩ := ih ty (by simp) h1
        refine ⟨b, qs ++ [q], ?_, hb.view, hb.variadic, hb.plain, hb.list, ?_, ?_, ?_, ?_, nofun, ?_⟩
        · rw [← List.append_assoc, ← hb.flat]; flat
        · rw [firstType]; exact hb.first
        · intro q' l hq
          cases qs with
          | nil => cases hq; exact h3
          | cons x qs => exact hb.next q' qs (by rw [List.cons_append] at hq; rw [(List.cons.inj hq).1])
        · intro _
          cases qs with
          | nil => rw [← hb.whole rfl]; exact h2
          | cons x qs => exact hb.closed nofun
        · intro hq; simp at hq
        · intro n x t l r l' hi hrun
          have hi' : x.isIntersection = false := hi.resolve_right (by simp)
          rw [List.append_assoc, List.singleton_append]
          refine hb.loop n x q (t :: l) r l' (.inl hi') fun n' => ?_
          cases n' with
          | zero => exact runs_diverge
          | succ n' =>
            have := hrun n'
            unfold suffixLoop
            rw [pure_bind']
            dsimp only
            rw [current_bind]
            dsimp only
            rw [if_pos (is_iff.2 h3), if_neg (by rw [hi']; exact Bool.false_ne_true), take_bind]
            rw [show (x.isUnion || !(qs ++ [q]).isEmpty) = true by simp] at this
            exact this
    · have hp : isOne [.tyUnion, .tyIntersection, .tyOptional] (.node k cs) = false := by
        have := h.plain
        simp only [isOne, kindOf, Option.any_some, List.contains_cons, Bool.or_eq_false_iff] at this ⊢
        exact ⟨this.1, this.2.1, by simpa using hk, rfl⟩
      refine ⟨.node k cs, [], by simp, view_ty hl h.fits, h.variadic, hp, h.list, firstType_plain hp, nofun, fun h => absurd rfl h, fun _ => rfl, fun _ => rfl, ?_⟩
      intro n x t l r l' _ hrun
      have := hrun n
      simpa using this

theorem base_runs {m b : Node} {qs : List TokRef} (h : Split self c m b qs) {style : Parser.Style} (hst : style = .default → pack? (firstType m) = false) {t : TokRef} {l : List TokRef}
    (hr : FollowR m t) (ho : openCallback m = true → extends_ t = false) :
    runs (parseSimpleType self c style) (m.flat ++ t :: l) (.value b) (qs ++ t :: l) := by
  rw [h.flat]
  rw [h.first] at hst
  cases qs with
  | nil =>
    cases h.whole rfl
    rw [List.append_nil]
    exact simple_runs hs hl h.view h.variadic h.plain hst hr ho
  | cons q qs =>
    have hq := h.next q qs rfl
    rw [List.append_assoc, List.cons_append]
    refine simple_runs hs hl h.view h.variadic h.plain hst ⟨?_, ?_, ?_, fun _ => ?_⟩ (fun h' => ?_)
    all_goals first | (rw [h.closed nofun] at h'; cases h'; done) | simp [is_sym hq]

/-! ## Unions and intersections -/

omit hs hl in
theorem suffixNone_runs {n : Nat} {x : Suffix} {b r : Node} {l l1 l2 : List TokRef} (h : runs (parseSimpleType self c .default) l (.value b) l1)
    (h' : runs (suffixLoop self c (n + 1) x (some b)) l1 (.value r) l2) : runs (suffixLoop self c (n + 1) x none) l (.value r) l2 := by
  unfold suffixLoop at h' ⊢
  rw [pure_bind'] at h'
  exact runs_bind (runs_bind h runs_pure) h'

/-- The node that `suffixResult` makes. -/
def made (x : Suffix) : Node :=
  if x.isUnion then .node .tyUnion [.node .typeUnion [optTok x.leading, punct x.types]]
  else .node .tyIntersection [.node .typeIntersection [optTok x.leading, punct x.types]]

/-- What is being read, and its separator. -/
def Mode (s : Symbol) (x : Suffix) : Prop :=
  s = .pipe ∧ x.isUnion = true ∧ x.isIntersection = false ∨ s = .ampersand ∧ x.isUnion = false ∧ x.isIntersection = true

omit hs hl in
theorem suffixEnd_runs {n : Nat} {x : Suffix} {s : Symbol} {m : Node} {t : TokRef} {l : List TokRef} (hx : Mode s x) (ht : extends_ t = false)
    (he : (x.types.isEmpty && x.leading.isNone) = false) :
    runs (suffixLoop self c n x (some m)) (t :: l) (.value (made { x with types := x.types.push (.end m) })) (t :: l) := by
  cases n with
  | zero => exact runs_diverge
  | succ n =>
    simp only [extends_, Bool.or_eq_false_iff] at ht
    unfold suffixLoop
    rw [pure_bind']
    dsimp only
    rw [current_bind]
    dsimp only
    rw [if_neg (by simp [ht.1.1]), if_neg (by simp [ht.1.2]), if_neg (by simp [ht.2]), he, if_neg Bool.false_ne_true]
    obtain ⟨ts, i, j, o⟩ := x
    rcases hx with ⟨-, h1, h2⟩ | ⟨-, h1, h2⟩ <;> cases h1 <;> cases h2 <;> exact runs_pure

omit hs hl in
theorem suffixBare_runs {n : Nat} {i j : Bool} {m : Node} {t : TokRef} {l : List TokRef} (ht : extends_ t = false) :
    runs (suffixLoop self c n ⟨.new, i, j, none⟩ (some m)) (t :: l) (.value m) (t :: l) := by
  cases n with
  | zero => exact runs_diverge
  | succ n =>
    simp only [extends_, Bool.or_eq_false_iff] at ht
    unfold suffixLoop
    rw [pure_bind']
    dsimp only
    rw [current_bind]
    dsimp only
    rw [if_neg (by simp [ht.1.1]), if_neg (by simp [ht.1.2]), if_neg (by simp [ht.2]), if_pos (show ((Punctuated.new (α := Node)).isEmpty && (none : Option TokRef).isNone) = true from rfl)]
    exact runs_pure

omit hs hl in
theorem suffixSep_runs {n : Nat} {x y : Suffix} {s : Symbol} {m : Node} {u : TokRef} {l l' : List TokRef} {r : Res Node} (hu : Sym u s) (hy : Mode s y)
    (hxy : y.types = x.types.push (.punctuated m u) ∧ y.leading = x.leading) (hx : (x.isUnion = true → s = .pipe) ∧ (x.isIntersection = true → s = .ampersand))
    (h : ∀ n', runs (suffixLoop self c n' y none) l r l') : runs (suffixLoop self c n x (some m)) (u :: l) r l' := by
  cases n with
  | zero => exact runs_diverge
  | succ n =>
    have := h n
    unfold suffixLoop
    rw [pure_bind']
    dsimp only
    rw [current_bind]
    dsimp only
    obtain ⟨ts, i, j, o⟩ := x
    obtain ⟨ts', i', j', o'⟩ := y
    obtain ⟨hxy1, hxy2⟩ := hxy
    dsimp only at hxy1 hxy2 hx this
    subst hxy1 hxy2
    rcases hy with ⟨rfl, h1, h2⟩ | ⟨rfl, h1, h2⟩ <;> cases h1 <;> cases h2
    · have hj : j = false := by
        cases j with
        | false => rfl
        | true => exact absurd (hx.2 rfl) (by decide)
      subst hj
      rw [if_neg (by simp [is_sym hu]), if_pos (is_iff.2 hu), if_neg Bool.false_ne_true, take_bind]
      exact this
    · have hi : i = false := by
        cases i with
        | false => rfl
        | true => exact absurd (hx.1 rfl) (by decide)
      subst hi
      rw [if_neg (by simp [is_sym hu]), if_neg (by simp [is_sym hu]), if_pos (is_iff.2 hu), if_neg Bool.false_ne_true, take_bind]
      exact this

omit hs hl in
theorem single_first {m : Node} (h : single m = true) : pack? (firstType m) = false := by
  simp only [single, Bool.and_eq_true_iff, Bool.not_eq_true'] at h
  exact h.2

omit hs hl in
theorem followR_sep {m : Node} {u : TokRef} {s : Symbol} (hu : Sym u s) (hs' : s = .pipe ∨ s = .ampersand) : FollowR m u := by
  rcases hs' with rfl | rfl <;> exact ⟨by simp [is_sym hu], by simp [is_sym hu], by simp [is_sym hu], fun _ => by simp [is_sym hu]⟩

omit hs hl in
theorem mode_eta {s : Symbol} {x : Suffix} (hx : Mode s x) {qs : List TokRef} (hq : s = .ampersand → qs = []) :
    { x with isUnion := x.isUnion || !qs.isEmpty } = x := by
  obtain ⟨ts, i, j, o⟩ := x
  rcases hx with ⟨-, h1, -⟩ | ⟨h, -⟩
  · cases h1; rfl
  · rw [hq h]; simp

/-- The last member of a list. -/
def lastMember (ps : List (Pair Node)) : Node := (ps.getLast?.map Pair.value).getD (.tok interpolatedEnd)

theorem members_loop {P : Node → Prop} {s : Symbol} (hP : ∀ m, P m → s = .ampersand → isOne [.tyOptional] m = false) (hs' : s = .pipe ∨ s = .ampersand) {ps : List (Pair Node)}
    {b : Bool} (h : MembersF c P s b ps) (hb : b = true) {t : TokRef} {l : List TokRef} (ht : extends_ t = false) (hr : FollowR (lastMember ps) t) : ∀ n x, Mode s x → (x.types.isEmpty && x.leading.isNone) = false →
    runs (suffixLoop self c n x none) (yield ps ++ t :: l) (.value (made { x with types := ⟨x.types.pairs ++ ps⟩ })) (t :: l) := by
  induction h with
  | @last b m h1 h2 h3 =>
    intro n x hx he
    cases n with
    | zero => exact runs_diverge
    | succ n =>
      obtain ⟨b', qs, hm⟩ := member_split hl (self := self) m h1
      simp only [yield_cons, yield_nil, yield_end, List.append_nil, yield_node]
      have hq : s = .ampersand → qs = [] := fun h => hm.bare (hP m h2 h)
      refine suffixNone_runs (base_runs hs hl hm (fun _ => single_first (h3 hb)) hr fun _ => ht) ?_
      refine hm.loop _ x t l _ _ ?_ fun n' => ?_
      · rcases hx with h | h
        · exact .inl h.2.2
        · exact .inr (hq h.1)
      · rw [mode_eta hx hq]
        exact suffixEnd_runs hx ht he
  | @cons b m u ps h1 h2 h3 h4 h5 h6 ih =>
    intro n x hx he
    cases n with
    | zero => exact runs_diverge
    | succ n =>
      obtain ⟨b', qs, hm⟩ := member_split hl (self := self) m h1
      rw [yield_cons, yield_punctuated, List.append_assoc, List.append_assoc, yield_node, List.singleton_append]
      have hq : s = .ampersand → qs = [] := fun h => hm.bare (hP m h2 h)
      refine suffixNone_runs (base_runs hs hl hm (fun _ => single_first (h3 hb)) (followR_sep h5 hs') fun h => by rw [h4] at h; cases h) ?_
      refine hm.loop _ x u _ _ _ ?_ fun n' => ?_
      · rcases hx with h | h
        · exact .inl h.2.2
        · exact .inr (hq h.1)
      · rw [mode_eta hx hq]
        refine suffixSep_runs (y := { x with types := x.types.push (.punctuated m u) }) h5 hx ⟨rfl, rfl⟩ ?_ fun n'' => ?_
        · rcases hx with ⟨h, h', h''⟩ | ⟨h, h', h''⟩
          · exact ⟨fun _ => h, (fun h => by rw [h''] at h; cases h)⟩
          · exact ⟨(fun h => by rw [h'] at h; cases h), fun _ => h⟩
        · have hne : ps ≠ [] := by rintro rfl; cases h6
          have hlm : lastMember (.punctuated m u :: ps) = lastMember ps := by
            cases ps with
            | nil => exact absurd rfl hne
            | cons p ps => simp [lastMember]
          have := ih rfl (by rw [← hlm]; exact hr) n'' { x with types := x.types.push (.punctuated m u) } hx (by simp [Punctuated.push, Punctuated.isEmpty, Punctuated.len])
          simpa [Punctuated.push] using this

omit hs hl in
theorem lastEnds_eq {ps : List (Pair Node)} (h : ps ≠ []) : endsName.lastEnds (ps.map pairNode) = endsName (lastMember ps) := by
  induction ps with
  | nil => exact absurd rfl h
  | cons p ps ih =>
    cases ps with
    | nil => cases p <;> simp [pairNode, endsName.lastEnds, lastMember, Pair.value]
    | cons q ps =>
      rw [List.map_cons]
      have : lastMember (p :: q :: ps) = lastMember (q :: ps) := by simp [lastMember]
      rw [this, ← ih nofun]
      cases p <;> simp [pairNode, endsName.lastEnds]

omit hs hl in
theorem MembersF.ne {P : Node → Prop} {s : Symbol} {b : Bool} {ps : List (Pair Node)} (h : MembersF c P s b ps) : ps ≠ [] := by
  cases h <;> nofun

/-- A type that does not start with a separator. -/
theorem main_runs {ty : Node} (h : Fits c (.cat .typeInfo) ty) (hv : variadic ty = false) (hn : led ty = false) (hls : list? ty = false) {style : Parser.Style}
    (hst : style = .default → pack? (firstType ty) = false) {t : TokRef} (l : List TokRef) (ht : FollowT ty t) :
    ∃ b l1, runs (parseSimpleType self c style) (ty.flat ++ t :: l) (.value b) l1 ∧ list? b = false ∧ TyV c b ∧ variadic b = false ∧
      ∀ n, runs (suffixLoop self c n ⟨.new, false, false, none⟩ (some b)) l1 (.value ty) (t :: l) := by
  have plain : isOne [.tyUnion, .tyIntersection] ty = false → ∃ b l1, runs (parseSimpleType self c style) (ty.flat ++ t :: l) (.value b) l1 ∧ list? b = false ∧ TyV c b ∧ variadic b = false ∧
      ∀ n, runs (suffixLoop self c n ⟨.new, false, false, none⟩ (some b)) l1 (.value ty) (t :: l) := by
    intro hp
    obtain ⟨b, qs, hm⟩ := member_split hl (self := self) ty ⟨h, hv, hp, hls⟩
    refine ⟨b, _, base_runs hs hl hm hst ht.2 fun _ => ht.1, hm.list, hm.view, hm.variadic, fun n => ?_⟩
    exact hm.loop _ _ _ _ _ _ (.inl rfl) fun n' => suffixBare_runs ht.1
  have joined : ∀ {P : Node → Prop} {s : Symbol} {ps : List (Pair Node)}, (∀ m, P m → s = .ampersand → isOne [.tyOptional] m = false) → (s = .pipe ∨ s = .ampersand) →
      MembersF c P s false ps → 2 ≤ ps.length → ty.flat = yield ps → firstType ty = firstType (ps.head?.map Pair.value |>.getD (.tok interpolatedEnd)) →
      endsName ty = endsName (lastMember ps) → made ⟨⟨ps⟩, s == .pipe, s == .ampersand, none⟩ = ty →
      ∃ b l1, runs (parseSimpleType self c style) (ty.flat ++ t :: l) (.value b) l1 ∧ list? b = false ∧ TyV c b ∧ variadic b = false ∧
        ∀ n, runs (suffixLoop self c n ⟨.new, false, false, none⟩ (some b)) l1 (.value ty) (t :: l) := by
    intro P s ps hP hs' hps h2 hf hft hend hmade
    cases hps with
    | last => simp at h2
    | @cons _ m u ps h3 h4 h5 h6 h7 h8 =>
      obtain ⟨b, qs, hm⟩ := member_split hl (self := self) m h3
      rw [hft] at hst
      rw [hf, yield_cons, yield_punctuated, List.append_assoc, List.append_assoc, yield_node, List.singleton_append]
      refine ⟨b, _, base_runs hs hl hm hst (followR_sep h7 hs') (fun h => by rw [h6] at h; cases h), hm.list, hm.view, hm.variadic, fun n => ?_⟩
      have hq : s = .ampersand → qs = [] := fun h => hm.bare (hP m h4 h)
      refine hm.loop _ _ _ _ _ _ (.inl rfl) fun n' => ?_
      have hmode : Mode s ⟨⟨[.punctuated m u]⟩, s == .pipe, s == .ampersand, none⟩ := by
        rcases hs' with rfl | rfl
        · exact .inl ⟨rfl, rfl, rfl⟩
        · exact .inr ⟨rfl, rfl, rfl⟩
      refine suffixSep_runs (y := ⟨⟨[.punctuated m u]⟩, s == .pipe, s == .ampersand, none⟩) h7 hmode ⟨rfl, rfl⟩ ⟨fun h => ?_, nofun⟩ fun n'' => ?_
      · rcases hs' with h' | h'
        · exact h'
        · rw [hq h'] at h; cases h
      · have hlm : lastMember (.punctuated m u :: ps) = lastMember ps := by
          cases ps with
          | nil => exact absurd rfl h8.ne
          | cons p ps => simp [lastMember]
        have hr : FollowR (lastMember ps) t := ⟨ht.2.dot, ht.2.arrow, ht.2.ellipsis, fun h => ht.2.less (by rw [hend, hlm]; exact h)⟩
        have := members_loop hs hl hP hs' h8 rfl (l := l) ht.1 hr n'' _ hmode rfl
        rw [← hmade]
        exact this
  have h' := view_ty hl h
  cases h' with
  | @union o ps h1 h2 h3 =>
    cases o with
    | some x => cases hn
    | none =>
      refine joined (P := fun _ => True) (s := .pipe) (by simp) (.inl rfl) h2 (h3 rfl) (by flat) ?_ ?_ rfl
      · cases ps with
        | nil => cases h2
        | cons p ps => cases p <;> simp [punct, optTok, pairNode, firstType, Pair.value, Node.none]
      · simp only [punct, endsName]
        exact lastEnds_eq h2.ne
  | @intersection o ps h1 h2 h3 =>
    cases o with
    | some x => cases hn
    | none =>
      refine joined (s := .ampersand) (fun _ h _ => h) (.inr rfl) h2 (h3 rfl) (by flat) ?_ ?_ rfl
      · cases ps with
        | nil => cases h2
        | cons p ps => cases p <;> simp [punct, optTok, pairNode, firstType, Pair.value, Node.none]
      · simp only [punct, endsName]
        exact lastEnds_eq h2.ne
  | _ => exact plain rfl

omit hs hl in
theorem single_list {m : Node} (h : single m = true) : list? m = false := by
  have := single_first h
  cases hm : list? m with
  | false => rfl
  | true =>
    unfold list? at hm
    split at hm
    · rename_i a ts
      simp only [firstType, pack?] at this
      split at this
      · rename_i e; rw [e] at hm; cases hm
      · cases this
    · cases hm

theorem type_runs {ty : Node} {t : TokRef} {l : List TokRef} (h : Fits c (.cat .typeInfo) ty) (h1 : single ty = true) (ht : FollowT ty t) :
    runs (parseType self c) (ty.flat ++ t :: l) (.value ty) (t :: l) := by
  have hv := single_variadic h1
  obtain ⟨u, l1, hu⟩ := ty_first hl h hv
  unfold parseType
  cases hn : led ty with
  | false =>
    have he := hu.led hn
    simp only [extends_, Bool.or_eq_false_iff] at he
    rw [flatten_first hu.flat, current_bind]
    dsimp only
    rw [if_neg (by simp [he.1.2, he.2]), ← flatten_first hu.flat]
    obtain ⟨b, l2, h2, -, -, -, h3⟩ := main_runs hs hl h hv hn (single_list h1) (style := .default) (fun _ => single_first h1) l ht
    refine runs_bind h2 ?_
    dsimp only
    unfold parseTypeSuffix
    rw [fuel_bind]
    exact h3 _
  | true =>
    have joined : ∀ {P : Node → Prop} {s : Symbol} {ps : List (Pair Node)} {o : TokRef}, (∀ m, P m → s = .ampersand → isOne [.tyOptional] m = false) → (s = .pipe ∨ s = .ampersand) →
        MembersF c P s true ps → Sym o s → ty.flat = o :: yield ps →
        endsName ty = endsName (lastMember ps) → made ⟨⟨ps⟩, s == .pipe, s == .ampersand, some o⟩ = ty →
        runs (do
          match ← current with
          | none => return .notFound
          | some t =>
            if is .pipe t || is .ampersand t then parseTypeSuffix self c none
            else
              match ← parseSimpleType self c .default with
              | .value ty => parseTypeSuffix self c (some ty)
              | .notFound => giveUp; return .moved
              | .moved => return .moved) (ty.flat ++ t :: l) (.value ty) (t :: l) := by
      intro P s ps o hP hs' hps ho hf hend hmade
      have hr : FollowR (lastMember ps) t := ⟨ht.2.dot, ht.2.arrow, ht.2.ellipsis, fun h => ht.2.less (by rw [hend]; exact h)⟩
      rw [hf, List.cons_append, current_bind]
      dsimp only
      unfold parseTypeSuffix
      rcases hs' with rfl | rfl
      · rw [if_pos (by simp [is_sym ho])]
        dsimp only
        rw [current_bind]
        dsimp only
        rw [if_pos (is_iff.2 ho), fuel_bind, take_bind]
        have := members_loop hs hl hP (.inl rfl) hps rfl (l := l) ht.1 hr ((o :: (yield ps ++ t :: l)).length + 1) ⟨.new, true, false, some o⟩ (.inl ⟨rfl, rfl, rfl⟩) rfl
        rw [← hmade]
        exact this
      · rw [if_pos (by simp [is_sym ho])]
        dsimp only
        rw [current_bind]
        dsimp only
        rw [if_neg (by simp [is_sym ho]), if_pos (is_iff.2 ho), fuel_bind, take_bind]
        have := members_loop hs hl hP (.inr rfl) hps rfl (l := l) ht.1 hr ((o :: (yield ps ++ t :: l)).length + 1) ⟨.new, false, true, some o⟩ (.inr ⟨rfl, rfl, rfl⟩) rfl
        rw [← hmade]
        exact this
    have h' := view_ty hl h
    cases h' with
    | @union o ps h4 h2 h3 =>
      cases o with
      | none => cases hn
      | some x =>
        refine joined (P := fun _ => True) (s := .pipe) (by simp) (.inl rfl) h2 (h4 _ rfl) (by flat) ?_ rfl
        simp only [punct, endsName]
        exact lastEnds_eq h2.ne
    | @intersection o ps h4 h2 h3 =>
      cases o with
      | none => cases hn
      | some x =>
        refine joined (s := .ampersand) (fun _ h _ => h) (.inr rfl) h2 (h4 _ rfl) (by flat) ?_ rfl
        simp only [punct, endsName]
        exact lastEnds_eq h2.ne
    | _ => cases hn

theorem typeOrPack_runs {ty : Node} {t : TokRef} {l : List TokRef} (h : Fits c (.cat .typeInfo) ty) (hv : variadic ty = false) (hn : led ty = false) (ht : FollowP ty t) :
    runs (parseTypeOrPack self c) (ty.flat ++ t :: l) (.value ty) (t :: l) := by
  unfold parseTypeOrPack
  cases hls : list? ty with
  | true =>
    have h' := view_ty hl h
    cases h' <;> first | (cases hls; done) | skip
    case tuple a b args h1 h2 h3 h4 =>
      have hr := simple_runs hs hl (TyV.tuple h1 h2 h3 h4) (style := .allowPack) rfl rfl nofun ht.2 (l := l) nofun
      refine runs_bind hr ?_
      have : ((args.pairs.map (Pair.map Arg.type)).map pairNode).length ≠ 1 := by
        simpa [list?, elements_punct] using hls
      simp only [punct]
      rw [if_pos (by simpa using this)]
      exact runs_pure
  | false =>
    have ho : openType ty = true := by
      simp only [variadic, isOne] at hv
      simp only [openType, hls, Bool.not_false, Bool.and_true, Bool.not_eq_true', isOne]
      cases hk : kindOf ty with
      | none => rfl
      | some k => rw [hk] at hv; simp at hv ⊢; exact hv.2
    obtain ⟨b, l2, h2, h3, h4, h5, h6⟩ := main_runs hs hl h hv hn hls (style := .allowPack) nofun l ⟨ht.1 ho, ht.2⟩
    refine runs_bind h2 ?_
    have hsuf : runs (parseTypeSuffix self c (some b)) l2 (.value ty) (t :: l) := by
      unfold parseTypeSuffix
      rw [fuel_bind]
      exact h6 _
    cases h4 with
    | @tuple x y args h1 h2 h3' h4' =>
      have : ((args.pairs.map (Pair.map Arg.type)).map pairNode).length = 1 := by
        simpa [list?, elements_punct] using h3
      simp only [punct]
      rw [if_neg (by simpa using this)]
      exact hsuf
    | pack => cases h5
    | _ => exact hsuf

end

end FM.Parser.Forward
