import Verif.Proofs.Parser.ViewTypes

/-! Helper lemmas: the parser accepts the types of the grammar. -/

namespace FM.Parser.Forward
open FM.Spec FM.Parser FM.Parser.Clean

variable {c : Cfg} {α β : Type}

section
variable {t u : TokRef} {l l' : List TokRef} {b : β} {P : TokRef → Bool}

theorem currentIs_bind {f : Bool → M β} : runs (currentIs P >>= f) (t :: l) b l' = runs (f (P t)) (t :: l) b l' := runs_step rfl

theorem parseName_pos (h : Nam t) {f : Res TokRef → M β} : runs (parseName >>= f) (t :: l) b l' = runs (f (.value t)) l b l' := by
  refine runs_step ?_
  unfold parseName
  rw [bind_eq (l1 := l) (a := .took t) (by rw [takeIf_eq, if_pos (isIdent_nam h)])]; rfl

theorem genericPack_bind (h : Nam t) (hu : Sym u .ellipsis) {f : Node → M β} :
    runs (genericPack >>= f) (t :: u :: l) b l' = runs (f (.node .tyGenericPack [.tok t, .tok u])) l b l' := by
  refine runs_step ?_
  unfold genericPack
  rw [bind_eq (l1 := u :: l) (a := .value t)]
  · dsimp only
    rw [bind_eq (l1 := l) (a := some u) (require_eq (is_iff.2 hu))]; rfl
  · unfold parseName
    rw [bind_eq (l1 := u :: l) (a := .took t) (by rw [takeIf_eq, if_pos (isIdent_nam h)])]; rfl
end

/-! ## First tokens -/

/-- The tokens that start a type. -/
def typeStarts : List Symbol := [.kNil, .kTrue, .kFalse, .leftBrace, .leftParen, .lessThan, .pipe, .ampersand]

/-- The token may start a type. -/
def TyHead (u : TokRef) : Prop := Nam u ∨ u.token.type.kind = .stringLiteral ∨ ∃ s ∈ typeStarts, Sym u s

theorem TyHead.is {u : TokRef} (h : TyHead u) {s : Symbol} (hs : s ∉ typeStarts) : is s u = false := by
  rcases h with h | h | ⟨s', h1, h⟩
  · exact is_nam h
  · exact is_str h
  · rw [is_sym h, decide_eq_false]
    rintro rfl; exact hs h1

/-- The first tokens of a type. -/
structure First (n : Node) (u : TokRef) (l : List TokRef) : Prop where
  flat : n.flat = u :: l
  head : TyHead u
  led : led n = false → extends_ u = false
  second : Nam u → l = [] ∨ ∃ v l', l = v :: l' ∧ is .ellipsis v = false ∧ is .colon v = false

theorem first_sym {n : Node} {u : TokRef} {l : List TokRef} {s : Symbol} (h : n.flat = u :: l) (hu : Sym u s) (hs : s ∈ typeStarts)
    (he : extends_ u = false) : First n u l :=
  ⟨h, .inr (.inr ⟨s, hs, hu⟩), fun _ => he, fun ⟨_, h⟩ => by rw [hu] at h; cases h⟩

theorem first_nam {n : Node} {u v : TokRef} {l : List TokRef} {s : Symbol} (h : n.flat = u :: v :: l) (hu : Nam u) (hv : Sym v s) (hs : s ≠ .ellipsis) (hs' : s ≠ .colon) : First n u (v :: l) :=
  ⟨h, .inl hu, fun _ => by simp [extends_, is_nam hu], fun _ => .inr ⟨v, l, rfl, by simp [is_sym hv, hs], by simp [is_sym hv, hs']⟩⟩

theorem simple_first {n : Node} (h : TyV c n) (hv : variadic n = false) (hp : isOne [.tyUnion, .tyIntersection, .tyOptional] n = false) :
    ∃ u l, First n u l := by
  cases h with
  | @array a b o ty h1 => exact ⟨a, _, first_sym (by flat; rfl) h1 (by decide) (by simp [extends_, is_sym h1])⟩
  | @name t h => exact ⟨t, [], by flat, .inl h, fun _ => by simp [extends_, is_nam h], fun _ => .inl rfl⟩
  | @nil t h => exact ⟨t, [], first_sym (by flat) h (by decide) (by simp [extends_, is_sym h])⟩
  | @string t h => exact ⟨t, [], by flat, .inr (.inl h), fun _ => by simp [extends_, is_str h], fun _ => .inl rfl⟩
  | @boolean t h =>
    rcases h with h | h
    · exact ⟨t, [], first_sym (by flat) h (by decide) (by simp [extends_, is_sym h])⟩
    · exact ⟨t, [], first_sym (by flat) h (by decide) (by simp [extends_, is_sym h])⟩
  | @callback g a b u args r h1 h2 =>
    cases g with
    | none => exact ⟨a, _, first_sym (by flat; rfl) h2 (by decide) (by simp [extends_, is_sym h2])⟩
    | some m =>
      obtain ⟨_, x, y, ps, rfl, h3, -⟩ := view_genericDecl (h1 m rfl).1
      exact ⟨x, _, first_sym (by flat; rfl) h3 (by decide) (by simp [extends_, is_sym h3])⟩
  | @generic t a b ts h1 h2 h3 => exact ⟨t, _, first_nam (by flat; rfl) h1 h3 (by decide) (by decide)⟩
  | pack => cases hv
  | module h1 h2 h3 => exact ⟨_, _, first_nam (by flat; rfl) h1 h3 (by decide) (by decide)⟩
  | moduleGeneric h1 h2 h3 => exact ⟨_, _, first_nam (by flat; rfl) h1 h3 (by decide) (by decide)⟩
  | optional => cases hp
  | table h1 => exact ⟨_, _, first_sym (by flat; rfl) h1 (by decide) (by simp [extends_, is_sym h1])⟩
  | typeof h1 h2 => exact ⟨_, _, first_nam (by flat; rfl) ⟨_, h1⟩ h2 (by decide) (by decide)⟩
  | tuple h1 => exact ⟨_, _, first_sym (by flat; rfl) h1 (by decide) (by simp [extends_, is_sym h1])⟩
  | union => cases hp
  | intersection => cases hp
  | variadic => cases hv

theorem First.append {n m : Node} {u v : TokRef} {l l' : List TokRef} {s : Symbol} (h : First n u l) (hm : m.flat = n.flat ++ v :: l') (hn : Spec.led n = false)
    (hv : Sym v s) (hs : s ≠ .ellipsis) (hs' : s ≠ .colon) : First m u (l ++ v :: l') := by
  refine ⟨by rw [hm, h.flat]; rfl, h.head, fun _ => h.led hn, fun hu => .inr ?_⟩
  rcases h.second hu with rfl | ⟨w, l1, rfl, h1⟩
  · exact ⟨v, l', rfl, by simp [is_sym hv, hs], by simp [is_sym hv, hs']⟩
  · exact ⟨w, _, rfl, h1⟩

theorem plain_led {n : Node} (h : isOne [.tyUnion, .tyIntersection] n = false) : led n = false := by
  unfold led
  split
  · cases h
  · cases h
  · rfl

theorem member_first (hl : c.luau = true) (n : Node) : MemberF c n → ∃ u l, First n u l := by
  induction n using Node.induct with
  | ht t => intro h; obtain ⟨k, cs, h, -⟩ := fits_cat h.fits; cases h
  | hn k cs ih =>
    intro h
    by_cases hk : k = .tyOptional
    · subst hk
      have hv := view_ty hl h.fits
      cases hv with
      | @optional ty q h1 h2 h3 =>
        obtain ⟨u, l, h4⟩ := ih ty (by simp) h1
        exact ⟨u, _, h4.append (l' := []) (by flat) (plain_led h1.plain) h3 (by decide) (by decide)⟩
    · refine simple_first (view_ty hl h.fits) h.variadic ?_
      have := h.plain
      simp only [isOne, kindOf, Option.any_some, List.contains_cons, Bool.or_eq_false_iff] at this ⊢
      exact ⟨this.1, this.2.1, by simpa using hk, rfl⟩

theorem members_first (hl : c.luau = true) {P : Node → Prop} {s : Symbol} {b : Bool} {ps : List (Pair Node)} (h : MembersF c P s b ps) : ∃ m l', yield ps = m.flat ++ l' ∧ MemberF c m ∧
    (2 ≤ ps.length → ∃ v l'', l' = v :: l'' ∧ Sym v s) := by
  cases h with
  | last h1 h2 h3 => exact ⟨_, [], by simp, h1, by simp⟩
  | cons h1 h2 h3 h4 h5 h6 => exact ⟨_, _, by simp [List.append_assoc]; rfl, h1, fun _ => ⟨_, _, rfl, h5⟩⟩

theorem ty_first (hl : c.luau = true) {n : Node} (h : Fits c (.cat .typeInfo) n) (hv : variadic n = false) : ∃ u l, First n u l := by
  have key : ∀ (k k' : Kind) (o : Option TokRef) (ps : List (Pair Node)) (P : Node → Prop) (s : Symbol) (_ : n = .node k [.node k' [optTok o, punct ⟨ps⟩]]),
      (Node.node k [.node k' [optTok o, punct ⟨ps⟩]]).flat = yield o ++ yield ps → (∀ t, o = some t → Sym t s) → s ∈ [Symbol.pipe, .ampersand] → MembersF c P s o.isSome ps →
      (o = none → 2 ≤ ps.length) → (∀ t, o = some t → Spec.led n = true) → ∃ u l, First n u l := by
    intro k k' o ps P s hn hf h1 hs h2 h3 h4
    cases o with
    | some t =>
      refine ⟨t, yield ps, by rw [hn, hf]; rfl, .inr (.inr ⟨s, ?_, h1 t rfl⟩), fun h => ?_, fun ⟨_, h⟩ => by rw [h1 t rfl] at h; cases h⟩
      · simp only [List.mem_cons, List.not_mem_nil, or_false] at hs
        rcases hs with rfl | rfl <;> decide
      · rw [h4 t rfl] at h; cases h
    | none =>
      obtain ⟨m, l', h5, h6, h7⟩ := members_first hl h2
      obtain ⟨v, l'', rfl, h8⟩ := h7 (h3 rfl)
      obtain ⟨u, l, h9⟩ := member_first hl m h6
      refine ⟨u, _, h9.append (by rw [hn, hf, h5]; rfl) (plain_led h6.plain) h8 ?_ ?_⟩
      · rintro rfl; simp at hs
      · rintro rfl; simp at hs
  by_cases hp : isOne [.tyUnion, .tyIntersection, .tyOptional] n = false
  · exact simple_first (view_ty hl h) hv hp
  · have h' := view_ty hl h
    cases h' with
    | @optional ty q h1 h2 h3 =>
      obtain ⟨u, l, h4⟩ := member_first hl ty h1
      exact ⟨u, _, h4.append (l' := []) (by flat) (plain_led h1.plain) h3 (by decide) (by decide)⟩
    | @union o ps h1 h2 h3 =>
      exact key _ _ o ps _ .pipe rfl (by cases o <;> flat) h1 (by simp) h2 h3 (by rintro t rfl; rfl)
    | @intersection o ps h1 h2 h3 =>
      exact key _ _ o ps _ .ampersand rfl (by cases o <;> flat) h1 (by simp) h2 h3 (by rintro t rfl; rfl)
    | _ => exact absurd rfl hp

/-- The first token of a type or pack. -/
theorem pack_first (hl : c.luau = true) {n : Node} (h : Fits c (.cat .typeInfo) n) : ∃ u l, n.flat = u :: l ∧ is .greaterThan u = false ∧ is .rightParen u = false := by
  cases hv : variadic n with
  | false =>
    obtain ⟨u, l, h1⟩ := ty_first hl h hv
    exact ⟨u, l, h1.flat, h1.head.is (by decide), h1.head.is (by decide)⟩
  | true =>
    have h' := view_ty hl h
    cases h' <;> first | (cases hv; done) | skip
    case pack t e h1 h2 => exact ⟨t, [e], by flat, is_nam h1, is_nam h1⟩
    case variadic e ty h1 h2 h3 => exact ⟨e, ty.flat, by flat, by simp [is_sym h1], by simp [is_sym h1]⟩

/-! ## Packs -/

section
variable {self : Rec} (hs : RecF c self) (hl : c.luau = true)
include hl

theorem noPack_runs {ty : Node} {t : TokRef} {l : List TokRef} (h : Fits c (.cat .typeInfo) ty) (hv : variadic ty = false) (ht : is .ellipsis t = false) :
    runs (parseTypePack self) (ty.flat ++ t :: l) .notFound (ty.flat ++ t :: l) := by
  obtain ⟨u, l1, h1⟩ := ty_first hl h hv
  rw [h1.flat, List.cons_append]
  unfold parseTypePack
  rw [current_bind]
  dsimp only
  rw [if_neg (by rw [h1.head.is (by decide)]; exact Bool.false_ne_true)]
  split
  · rename_i hu
    have h2 := h1.second (isIdent_iff.1 hu)
    rcases h2 with rfl | ⟨v, l2, rfl, h3, -⟩
    · rw [List.nil_append, peekIs_bind, ht]
      exact runs_pure
    · rw [List.cons_append, peekIs_bind, h3]
      exact runs_pure
  · exact runs_pure

include hs

theorem pack_runs {ty : Node} {t : TokRef} {l : List TokRef} (h : Fits c (.cat .typeInfo) ty) (hv : variadic ty = true) (ht : FollowP ty t) :
    runs (parseTypePack self) (ty.flat ++ t :: l) (.value ty) (t :: l) := by
  unfold parseTypePack
  have h' := view_ty hl h
  cases h' <;> first | (cases hv; done) | skip
  case pack x e h1 h2 =>
    have : (Node.node .tyGenericPack [.tok x, .tok e]).flat = [x, e] := by flat
    simp only [this, List.cons_append, List.nil_append, current_bind, is_nam h1, isIdent_nam h1, Bool.false_eq_true, if_false, if_true, peekIs_bind, is_iff.2 h2]
    rw [genericPack_bind h1 h2]
    exact runs_pure
  case variadic e ty h1 h2 h3 =>
    have : (Node.node .tyVariadic [.tok e, ty]).flat = e :: ty.flat := by flat
    simp only [this, List.cons_append, current_bind, is_iff.2 h1, if_true, take_bind]
    refine runs_bind (hs.type hl ty t l h2 h3 ⟨ht.1 rfl, ht.2.dot, ht.2.arrow, ht.2.ellipsis, fun h => ht.2.less (by simpa only [endsName] using h)⟩) ?_
    exact runs_pure

theorem returnType_runs {ty : Node} {t : TokRef} {l : List TokRef} (h : Fits c (.cat .typeInfo) ty) (hn : led ty = false) (ht : FollowP ty t) :
    runs (parseReturnType self) (ty.flat ++ t :: l) (.value ty) (t :: l) := by
  unfold parseReturnType
  cases hv : variadic ty with
  | false =>
    refine runs_bind (noPack_runs hl h hv ht.2.ellipsis) ?_
    exact hs.typeOrPack hl ty t l h hv hn ht
  | true =>
    exact runs_bind (pack_runs hs hl h hv ht) runs_pure

/-! ## Arguments of generic types -/

theorem listF_first {P : Node → Prop} {Q : TokRef → Prop} {s : Symbol} {ps : List (Pair Node)} (h : ListF P s ps) (hP : ∀ a, P a → ∃ u l, a.flat = u :: l ∧ Q u) :
    ∃ u l, yield ps = u :: l ∧ Q u := by
  cases h with
  | last ha => obtain ⟨u, l, h1, h2⟩ := hP _ ha; exact ⟨u, l, by simp [h1], h2⟩
  | cons ha hu _ => obtain ⟨u, l, h1, h2⟩ := hP _ ha; exact ⟨u, _, by simp [h1]; rfl, h2⟩

theorem param_first (a : Node) (h : ParamT c a) : ∃ u l, a.flat = u :: l ∧ is .greaterThan u = false := by
  obtain ⟨u, l, h1, h2, -⟩ := pack_first hl h.1
  exact ⟨u, l, h1, h2⟩

theorem genericParamsLoop_runs {ps : List (Pair Node)} (h : ListF (ParamT c) .comma ps) {t : TokRef} {l : List TokRef} (ht : Sym t .greaterThan) : ∀ n acc,
    runs (genericParamsLoop self n acc) (yield ps ++ t :: l) (some ⟨acc.pairs ++ ps⟩) (t :: l) := by
  induction h with
  | @last a ha =>
    intro n acc
    cases n with
    | zero => exact runs_diverge
    | succ n =>
      unfold genericParamsLoop
      obtain ⟨u, l1, h1, h2⟩ := param_first hs hl a ha
      simp only [yield_cons, yield_nil, yield_end, List.append_nil, yield_node]
      rw [show a.flat ++ t :: l = u :: (l1 ++ t :: l) by rw [h1]; rfl, current_bind]
      dsimp only
      rw [if_neg (by rw [h2]; exact Bool.false_ne_true), show u :: (l1 ++ t :: l) = a.flat ++ t :: l by rw [h1]; rfl]
      refine runs_bind (returnType_runs hs hl ha.1 ha.2 (follow_sym ht rfl a).pack) ?_
      dsimp only
      rw [consumeIf_neg (by simp [is_sym ht])]
      exact runs_pure
  | @cons a u' x ps ha hu hps ih =>
    intro n acc
    cases n with
    | zero => exact runs_diverge
    | succ n =>
      unfold genericParamsLoop
      obtain ⟨u, l1, h1, h2⟩ := param_first hs hl a ha
      obtain ⟨v, l2, h3, h4⟩ := listF_first hs hl hps (param_first hs hl)
      rw [yield_cons, yield_punctuated, List.append_assoc, List.append_assoc, yield_node]
      rw [show a.flat ++ ([u'] ++ (yield (x :: ps) ++ t :: l)) = u :: (l1 ++ ([u'] ++ (yield (x :: ps) ++ t :: l))) by rw [h1]; rfl, current_bind]
      dsimp only
      rw [if_neg (by rw [h2]; exact Bool.false_ne_true), show u :: (l1 ++ ([u'] ++ (yield (x :: ps) ++ t :: l))) = a.flat ++ u' :: (yield (x :: ps) ++ t :: l) by rw [h1]; rfl]
      refine runs_bind (returnType_runs hs hl ha.1 ha.2 (follow_sym hu rfl a).pack) ?_
      dsimp only
      rw [consumeIf_pos (is_iff.2 hu)]
      dsimp only
      rw [show yield (x :: ps) ++ t :: l = v :: (l2 ++ t :: l) by rw [h3]; rfl, current_bind]
      dsimp only
      rw [if_neg (by rw [h4]; exact Bool.false_ne_true), show v :: (l2 ++ t :: l) = yield (x :: ps) ++ t :: l by rw [h3]; rfl]
      have := ih n (acc.push (.punctuated a u'))
      simpa [Punctuated.push] using this

theorem genericTypeParams_runs {ts : Punctuated Node} (h : AnyF (ParamT c) .comma ts) {a b : TokRef} {l : List TokRef} (hb : Sym b .greaterThan) :
    runs (expectGenericTypeParams self a) (yield ts ++ b :: l) (some (span a b, punct ts)) l := by
  unfold expectGenericTypeParams
  rw [fuel_bind]
  refine runs_bind (a := some ts) (l1 := b :: l) ?_ ?_
  · rcases h with rfl | h
    · unfold genericParamsLoop
      rw [yield_new, List.nil_append, current_bind]
      dsimp only
      rw [if_pos (is_iff.2 hb)]
      exact runs_pure
    · exact genericParamsLoop_runs hs hl h hb _ _
  · dsimp only
    rw [require_pos (is_iff.2 hb)]
    exact runs_pure

theorem typeInst_runs {ts : Punctuated Node} (h : AnyF (ParamT c) .comma ts) {a b x y : TokRef} {l : List TokRef} (hx : Sym x .lessThan) (hy : Sym y .greaterThan) (hb : Sym b .greaterThan) :
    runs (expectTypeInstantiation self a) (x :: (yield ts ++ y :: b :: l)) (some (.node .typeInst [span a b, span x y, punct ts])) l := by
  unfold expectTypeInstantiation
  rw [require_pos (is_iff.2 hx)]
  refine runs_bind (genericTypeParams_runs hs hl h hy) ?_
  dsimp only
  rw [require_pos (is_iff.2 hb)]
  exact runs_pure

/-! ## Generic declarations -/

theorem genericParam_runs {n : Node} (h : ParamV c n) {wd sp sd : Bool} (h1 : wd = false → hasDefault n = false) (h2 : sp = true → packParam n = true)
    (h3 : sd = true → hasDefault n = true) {t : TokRef} {l : List TokRef} {s : Symbol} (ht : Sym t s) (hs' : s = .comma ∨ s = .greaterThan) :
    runs (genericListParam self c wd sp sd) (n.flat ++ t :: l) (.param n (packParam n) (hasDefault n)) (t :: l) := by
  have he : is .equal t = false := by rcases hs' with rfl | rfl <;> simp [is_sym ht]
  have hd : is .ellipsis t = false := by rcases hs' with rfl | rfl <;> simp [is_sym ht]
  have hfo : ∀ ty, FollowT ty t := follow_sym ht (by rcases hs' with rfl | rfl <;> rfl)
  have name_bind : ∀ {u : TokRef} {l' : List TokRef} {f : Option TokRef → M ParamRes} {b l''}, Nam u → runs (f (some u)) l' b l'' → runs ((do
    match ← takeIf TokRef.isIdent with
    | .took t => return some t
    | .other t => tokenError t "expected a generic type name"; return some errorToken
    | .fatal => return none) >>= f) (u :: l') b l'' := by
    intro u l' f b l'' hu hf
    refine runs_bind (a := some u) (l1 := l') ?_ hf
    rw [takeIf_pos (isIdent_nam hu)]
    exact runs_pure
  have ell_bind : ∀ {d name : TokRef} {l' : List TokRef} {f : TokRef → M ParamRes} {b l''}, Sym d .ellipsis → runs (f d) l' b l'' → runs ((do
          match ← consumeIf .ellipsis with
          | some e => return e
          | none =>
            tokenError name "generic types come before generic type packs"
            basicSymbol c c!"...") >>= f) (d :: l') b l'' := by
    intro d name l' f b l'' hd hf
    refine runs_bind (a := d) (l1 := l') ?_ hf
    rw [consumeIf_pos (is_iff.2 hd)]
    exact runs_pure
  have miss : sd = false → ∀ {l' : List TokRef}, runs (missingDefault sd) l' () l' := by
    rintro rfl l'; exact runs_pure
  unfold genericListParam
  cases h with
  | @name x hx =>
    have hf : (genericParam (.node .genericName [.tok x]) none).flat = [x] := by unfold genericParam; flat
    have hsp : sp = false := by rw [Bool.eq_false_iff]; intro h; have := h2 h; cases this
    have hsd : sd = false := by rw [Bool.eq_false_iff]; intro h; have := h3 h; cases this
    subst hsp
    rw [hf, List.cons_append, List.nil_append]
    refine name_bind hx ?_
    dsimp only
    rw [current_bind]
    dsimp only
    rw [if_neg (by rw [hd]; simp)]
    refine runs_bind (a := .absent) (l1 := t :: l) ?_ ?_
    · unfold typeDefault
      rw [currentIs_bind, he, Bool.and_false, if_neg Bool.false_ne_true]
      exact runs_bind (miss hsd) runs_pure
    · dsimp only
      rw [hsd]
      exact runs_pure
  | @nameDefault x e ty hx hq hty hsg =>
    have hf : (genericParam (.node .genericName [.tok x]) (some (.node .tuple [.tok e, ty]))).flat = x :: e :: ty.flat := by unfold genericParam; flat
    have hsp : sp = false := by rw [Bool.eq_false_iff]; intro h; have := h2 h; cases this
    have hwd : wd = true := by cases wd with | true => rfl | false => have := h1 rfl; cases this
    subst hsp hwd
    rw [hf, List.cons_append, List.cons_append]
    refine name_bind hx ?_
    dsimp only
    rw [current_bind]
    dsimp only
    rw [if_neg (by simp [is_sym hq])]
    refine runs_bind (a := .present (.node .tuple [.tok e, ty])) (l1 := t :: l) ?_ ?_
    · unfold typeDefault
      rw [currentIs_bind, is_iff.2 hq, Bool.and_true, if_pos rfl, take_bind]
      refine runs_bind (hs.type hl ty t l hty hsg (hfo ty)) ?_
      exact runs_pure
    · exact runs_pure
  | @pack x d hx hdd =>
    have hf : (genericParam (.node .genericVariadic [.tok x, .tok d]) none).flat = [x, d] := by unfold genericParam; flat
    have hsd : sd = false := by rw [Bool.eq_false_iff]; intro h; have := h3 h; cases this
    rw [hf, List.cons_append, List.cons_append, List.nil_append]
    refine name_bind hx ?_
    dsimp only
    rw [current_bind]
    dsimp only
    rw [if_pos (by rw [is_iff.2 hdd]; simp)]
    refine ell_bind hdd ?_
    refine runs_bind (a := .absent) (l1 := t :: l) ?_ ?_
    · unfold packDefault
      rw [currentIs_bind, he, Bool.and_false, if_neg Bool.false_ne_true]
      exact runs_bind (miss hsd) runs_pure
    · dsimp only
      rw [hsd]
      exact runs_pure
  | @packDefault x d e ty hx hdd hq hty hk =>
    have hf : (genericParam (.node .genericVariadic [.tok x, .tok d]) (some (.node .tuple [.tok e, ty]))).flat = x :: d :: e :: ty.flat := by unfold genericParam; flat
    have hwd : wd = true := by cases wd with | true => rfl | false => have := h1 rfl; cases this
    subst hwd
    rw [hf, List.cons_append, List.cons_append, List.cons_append]
    refine name_bind hx ?_
    dsimp only
    rw [current_bind]
    dsimp only
    rw [if_pos (by rw [is_iff.2 hdd]; simp)]
    refine ell_bind hdd ?_
    refine runs_bind (a := .present (.node .tuple [.tok e, ty])) (l1 := t :: l) ?_ ?_
    · unfold packDefault
      rw [currentIs_bind, is_iff.2 hq, Bool.and_true, if_pos rfl, take_bind]
      cases hv : variadic ty with
      | true =>
        exact runs_bind (pack_runs hs hl hty hv (hfo ty).pack) runs_pure
      | false =>
        refine runs_bind (noPack_runs hl hty hv hd) ?_
        have h' := view_ty hl hty
        cases h' <;> first | (cases hk; done) | (cases hv; done) | skip
        refine runs_bind (hs.typeOrPack hl _ t l hty hv rfl (hfo _).pack) ?_
        exact runs_pure
    · exact runs_pure

theorem genericListLoop_runs {ps : List (Pair Node)} (h : ParamsV c ps) {wd : Bool} {t : TokRef} {l : List TokRef} (ht : Sym t .greaterThan)
    (h1 : wd = false → ∀ m ∈ ps.map Pair.value, hasDefault m = false) : ∀ n acc sp sd, (sp = true → ∀ m ∈ ps.map Pair.value, packParam m = true) →
    (sd = true → ∀ m ∈ ps.map Pair.value, hasDefault m = true) →
    runs (genericListLoop self c wd n acc sp sd) (yield ps ++ t :: l) (.value ⟨acc.pairs ++ ps⟩) (t :: l) := by
  induction h with
  | @last a ha =>
    intro n acc sp sd h2 h3
    cases n with
    | zero => exact runs_diverge
    | succ n =>
      unfold genericListLoop
      simp only [yield_cons, yield_nil, yield_end, List.append_nil, yield_node]
      refine runs_bind (genericParam_runs hs hl ha (fun h => h1 h _ (.head _)) (fun h => h2 h _ (.head _)) (fun h => h3 h _ (.head _)) ht (.inr rfl)) ?_
      dsimp only
      rw [takeIf_neg (by simp [is_sym ht])]
      exact runs_pure
  | @cons a u ps ha hu h4 h5 hps ih =>
    intro n acc sp sd h2 h3
    cases n with
    | zero => exact runs_diverge
    | succ n =>
      unfold genericListLoop
      rw [yield_cons, yield_punctuated, List.append_assoc, List.append_assoc, yield_node, List.singleton_append]
      refine runs_bind (genericParam_runs hs hl ha (fun h => h1 h _ (.head _)) (fun h => h2 h _ (.head _)) (fun h => h3 h _ (.head _)) hu (.inl rfl)) ?_
      dsimp only
      rw [takeIf_pos (is_iff.2 hu)]
      dsimp only
      have hnext : ∃ v l2, yield ps = v :: l2 ∧ is .greaterThan v = false := by
        have hv : ∀ n, ParamV c n → ∃ v l2, n.flat = v :: l2 ∧ is .greaterThan v = false := by
          intro n hn
          cases hn with
          | name hx => exact ⟨_, _, by unfold genericParam; flat; rfl, is_nam hx⟩
          | nameDefault hx => exact ⟨_, _, by unfold genericParam; flat; rfl, is_nam hx⟩
          | pack hx => exact ⟨_, _, by unfold genericParam; flat; rfl, is_nam hx⟩
          | packDefault hx => exact ⟨_, _, by unfold genericParam; flat; rfl, is_nam hx⟩
        cases hps with
        | last hx => obtain ⟨v, l2, h6, h7⟩ := hv _ hx; exact ⟨v, l2, by simp [h6], h7⟩
        | cons hx => obtain ⟨v, l2, h6, h7⟩ := hv _ hx; exact ⟨v, _, by simp [h6]; rfl, h7⟩
      obtain ⟨v, l2, h6, h7⟩ := hnext
      rw [show yield ps ++ t :: l = v :: (l2 ++ t :: l) by rw [h6]; rfl, current_bind]
      dsimp only
      rw [if_neg (by rw [h7]; exact Bool.false_ne_true), show v :: (l2 ++ t :: l) = yield ps ++ t :: l by rw [h6]; rfl]
      have := ih (fun h m hm => h1 h m (.tail _ hm)) n (acc.push (.punctuated a u)) _ _ h4 h5
      simpa [Punctuated.push] using this

theorem genericList_runs {n : Node} (h : Fits c (.cat .genericDecl) n) {wd : Bool} (h1 : wd = false → ∀ p ∈ genericParams (.some n), hasDefault p = false) {l : List TokRef} :
    runs (parseGenericTypeList self c wd) (n.flat ++ l) (.value n) l := by
  obtain ⟨-, a, b, ps, rfl, h2, h3, h4⟩ := view_genericDecl h
  have hf : (Node.node .genericDecl [span a b, punct ⟨ps⟩]).flat = a :: (yield ps ++ [b]) := by flat
  have h5 : genericParams (.some (.node .genericDecl [span a b, punct ⟨ps⟩])) = ps.map Pair.value := elements_punct ⟨ps⟩
  rw [h5] at h1
  unfold parseGenericTypeList
  rw [if_pos hl, hf, List.cons_append, consumeIf_pos (is_iff.2 h2)]
  dsimp only
  rw [fuel_bind, List.append_assoc]
  refine runs_bind (genericListLoop_runs hs hl h4 h3 h1 _ _ _ _ nofun nofun) ?_
  dsimp only
  rw [requireOr_pos (is_iff.2 h3)]
  exact runs_pure

omit hl hs in
theorem genericList_none {wd : Bool} {t : TokRef} {l : List TokRef} (ht : is .lessThan t = false) : runs (parseGenericTypeList self c wd) (t :: l) .notFound (t :: l) := by
  unfold parseGenericTypeList
  split
  · rw [consumeIf_neg ht]; exact runs_pure
  · exact runs_pure

end

end FM.Parser.Forward
