import Verif.Proofs.Parser.ForwardExpr

/-! Helper lemmas: the types of the grammar. -/

namespace FM.Parser.Forward
open FM.Spec FM.Parser FM.Parser.Clean

variable {c : Cfg} {α β : Type}

/-! ## Lists -/

theorem elements_pair (p : Pair Node) : (pairNode p).children.head? = some p.value := by cases p <;> rfl

theorem elements_punct (ps : Punctuated Node) : elements (punct ps) = ps.pairs.map Pair.value := by
  obtain ⟨ps⟩ := ps
  simp only [elements, punct, Node.children_node]
  induction ps with
  | nil => rfl
  | cons p ps ih => simp [elements_pair, ih]

theorem ListF.both {P Q : α → Prop} {s : Symbol} {l : List (Pair α)} (hl : ListF P s l) (h : ∀ a ∈ l.map Pair.value, Q a) :
    ListF (fun a => P a ∧ Q a) s l := by
  induction hl with
  | last ha => exact .last ⟨ha, h _ (.head _)⟩
  | cons ha hu _ ih => exact .cons ⟨ha, h _ (.head _)⟩ hu (ih fun a ha => h a (.tail _ ha))

/-- A list without elements, or one or more elements with separators between them. -/
def AnyF (P : α → Prop) (s : Symbol) (ps : Punctuated α) : Prop := ps = .new ∨ ListF P s ps.pairs

/-! ## Members -/

/-- A member of a union or an intersection. -/
structure MemberF (c : Cfg) (m : Node) : Prop where
  fits : Fits c (.cat .typeInfo) m
  variadic : variadic m = false
  plain : isOne [.tyUnion, .tyIntersection] m = false
  list : list? m = false

/-- The members of a union or an intersection. -/
inductive MembersF (c : Cfg) (P : Node → Prop) (s : Symbol) : Bool → List (Pair Node) → Prop
  | last {b : Bool} {m : Node} : MemberF c m → P m → (b = true → single m = true) → MembersF c P s b [.end m]
  | cons {b : Bool} {m : Node} {u : TokRef} {ps : List (Pair Node)} : MemberF c m → P m → (b = true → single m = true) → openCallback m = false → Sym u s →
    MembersF c P s true ps → MembersF c P s b (.punctuated m u :: ps)

theorem members_of {P : Node → Prop} {s : Symbol} : ∀ {ps : List (Pair Node)} (b : Bool), ListF (Fits c .type) s ps →
    (∀ m ∈ ps.map Pair.value, isOne [.tyUnion, .tyIntersection] m = false ∧ list? m = false) →
    (∀ m ∈ (ps.map Pair.value).dropLast, openCallback m = false) →
    (∀ m ∈ (ps.map Pair.value).tail, single m = true) → (b = true → ∀ m ∈ ps.map Pair.value, single m = true) →
    (∀ m ∈ ps.map Pair.value, P m) → MembersF c P s b ps := by
  intro ps b h
  induction h generalizing b with
  | last ha =>
    intro h1 _ _ h4 h5
    obtain ⟨h6, h7⟩ := fits_type ha
    exact .last ⟨h6, h7, (h1 _ (.head _)).1, (h1 _ (.head _)).2⟩ (h5 _ (.head _)) fun hb => h4 hb _ (.head _)
  | cons ha hu _ ih =>
    intro h1 h2 h3 h4 h5
    obtain ⟨h6, h7⟩ := fits_type ha
    refine .cons ⟨h6, h7, (h1 _ (.head _)).1, (h1 _ (.head _)).2⟩ (h5 _ (.head _)) (fun hb => h4 hb _ (.head _)) (h2 _ (.head _)) hu
      (ih true (fun m hm => h1 m (.tail _ hm)) (fun m hm => h2 m (.tail _ hm)) (fun m hm => h3 m ?_) (fun _ m hm => h3 m hm) fun m hm => h5 m (.tail _ hm))
    exact List.mem_of_mem_tail hm

/-! ## Arguments -/

/-- An argument of a function type. -/
structure ArgP (c : Cfg) (a : Arg) : Prop where
  name : ∀ p, a.name = some p → Nam p.1 ∧ Sym p.2 .colon
  type : Fits c (.cat .typeInfo) a.type

/-- The arguments of a function type. -/
inductive ArgsF (c : Cfg) : List (Pair Arg) → Prop
  | last {a : Arg} : ArgP c a → single a.type = true ∨ a.name = none ∧ variadic a.type = true → ArgsF c [.end a]
  | cons {a : Arg} {u : TokRef} {ps : List (Pair Arg)} : ArgP c a → single a.type = true → Sym u .comma → ArgsF c ps → ArgsF c (.punctuated a u :: ps)

theorem args_of : ∀ {ps : List (Pair Arg)}, ListF (ArgP c) .comma ps → (∀ a ∈ (ps.map Pair.value).dropLast, single a.type = true) →
    (∀ a, (ps.map Pair.value).getLast? = some a → single a.type = true ∨ a.name = none ∧ variadic a.type = true) → ArgsF c ps := by
  intro ps h
  induction h with
  | last ha => intro _ h2; exact .last ha (h2 _ rfl)
  | cons ha hu _ ih =>
    intro h1 h2
    exact .cons ha (h1 _ (.head _)) hu (ih (fun m hm => h1 m (.tail _ hm)) fun m hm => h2 m (by simpa using hm))

theorem view_typeArg {n : Node} (h : Fits c (.cat .typeArg) n) : ∃ a : Arg, n = a.node ∧ ArgP c a := by
  kinds h
  obtain ⟨x, y, rfl, h1, h2⟩ := fits_two hf
  rcases fits_opt h1 with rfl | ⟨m, rfl, hm⟩
  · exact ⟨⟨none, y⟩, rfl, fun p (hp : none = some p) => (nomatch hp), h2⟩
  · obtain ⟨a, b, rfl, h3, h4⟩ := fits_pair hm
    obtain ⟨a, x, rfl, h5⟩ := fits_name h3
    obtain ⟨b, rfl, h6⟩ := fits_sym h4
    exact ⟨⟨some (a, b), y⟩, rfl, by rintro _ ⟨⟩; exact ⟨⟨x, h5⟩, h6⟩, h2⟩

theorem argType_node (a : Arg) : argType a.node = some (a.type, a.name.isNone) := by
  obtain ⟨n, t⟩ := a
  cases n <;> rfl

theorem view_typeArgs {s : Symbol} {ps : List (Pair Node)} (h : ListF (Fits c (.cat .typeArg)) s ps) :
    ∃ as : List (Pair Arg), ps = as.map (Pair.map Arg.node) ∧ ListF (ArgP c) s as := by
  induction h with
  | last ha => obtain ⟨a, rfl, h1⟩ := view_typeArg ha; exact ⟨[.end a], rfl, .last h1⟩
  | cons ha hu hl ih =>
    obtain ⟨as, h2, h3⟩ := ih
    obtain ⟨a, rfl, h1⟩ := view_typeArg ha
    cases as with
    | nil => cases h3
    | cons x as => exact ⟨.punctuated a _ :: x :: as, by rw [h2]; rfl, .cons h1 hu h3⟩

theorem tuple_args {s : Symbol} {ps : List (Pair Node)} (h : ListF (Fits c (.cat .typeInfo)) s ps) :
    ∃ as : List (Pair Arg), ps = as.map (Pair.map Arg.type) ∧ (∀ a ∈ as.map Pair.value, a.name = none) ∧ ListF (ArgP c) s as := by
  induction h with
  | @last a ha => exact ⟨[.end ⟨none, a⟩], rfl, by simp [Pair.value], .last ⟨fun p (hp : none = some p) => (nomatch hp), ha⟩⟩
  | @cons a u _ _ ha hu hl ih =>
    obtain ⟨as, h2, h1, h3⟩ := ih
    cases as with
    | nil => cases h3
    | cons x as =>
      refine ⟨.punctuated ⟨none, a⟩ u :: x :: as, by rw [h2]; rfl, fun b hb => ?_, ?_⟩
      rotate_left
      · have h4 : ArgP c ⟨none, a⟩ := ⟨fun p (hp : none = some p) => (nomatch hp), ha⟩
        exact .cons h4 hu h3
      cases hb with
      | head => rfl
      | tail _ hb => exact h1 b hb

/-! ## Fields of table types -/

/-- An access modifier. -/
def AccessF (o : Option TokRef) : Prop := ∀ t, o = some t → Wrd t c!"read" ∨ Wrd t c!"write"

/-- The token is an access modifier. -/
def accessTok (t : TokRef) : Bool := tokenNamed c!"read" t || tokenNamed c!"write" t

theorem fits_access {n : Node} (h : Fits c (.opt (.tok (.word [c!"read", c!"write"]))) n) : ∃ o, n = optTok o ∧ AccessF o := by
  obtain ⟨o, rfl, h1⟩ := fits_optTok h
  refine ⟨o, rfl, fun t ht => ?_⟩
  obtain ⟨x, hx, h2⟩ := h1 t ht
  simp only [List.mem_cons, List.not_mem_nil, or_false] at hx
  rcases hx with rfl | rfl
  · exact .inl h2
  · exact .inr h2

inductive TypeFieldV (c : Cfg) : Node → Prop
  | name {o : Option TokRef} {t u : TokRef} {ty : Node} : AccessF o → Nam t → Sym u .colon → Fits c (.cat .typeInfo) ty → single ty = true →
    TypeFieldV c (.node .typeField [optTok o, .node .keyName [.tok t], .tok u, ty])
  | string {o : Option TokRef} {a b t u : TokRef} {ty : Node} : AccessF o → Sym a .leftBracket → Sym b .rightBracket → t.token.type.kind = .stringLiteral →
    Sym u .colon → Fits c (.cat .typeInfo) ty → single ty = true →
    TypeFieldV c (.node .typeField [optTok o, .node .keyIndex [span a b, .node .tyString [.tok t]], .tok u, ty])
  | index {o : Option TokRef} {a b u : TokRef} {k ty : Node} : AccessF o → Sym a .leftBracket → Sym b .rightBracket →
    Fits c (.cat .typeInfo) k → single k = true → startsTok (fun x => x.token.type.kind == .stringLiteral) k = false → isOne [.tyString] k = false →
    Sym u .colon → Fits c (.cat .typeInfo) ty → single ty = true →
    TypeFieldV c (.node .typeField [optTok o, .node .keyIndex [span a b, k], .tok u, ty])

theorem view_typeField (hl : c.luau = true) {n : Node} (h : Fits c (.cat .typeField) n) : TypeFieldV c n := by
  kinds h
  obtain ⟨x, k, u, ty, rfl, h1, h2, h3, h4⟩ := fits_four hf
  obtain ⟨o, rfl, h5⟩ := fits_access h1
  obtain ⟨u, rfl, h6⟩ := fits_sym h3
  have h7 := (fits_type h4).1
  have h8 : single ty = true := ho.2 hl
  clear ho ha hf hc hk h
  kinds h2
  case keyName =>
    obtain ⟨x, rfl, h9⟩ := fits_one hf
    obtain ⟨t, x, rfl, h10⟩ := fits_name h9
    exact .name h5 ⟨x, h10⟩ h6 h7 h8
  case keyIndex =>
    obtain ⟨s, k, rfl, h9, h10⟩ := fits_two hf
    obtain ⟨a, b, rfl, h11, h12⟩ := fits_span h9
    have h13 := (fits_type h10).1
    have h14 := ho.2 hl
    simp only [Chosen] at h14
    cases h15 : isOne [.tyString] k with
    | false =>
      refine .index h5 h11 h12 h13 h14.1 ?_ h15 h6 h7 h8
      rw [Bool.eq_false_iff]
      intro h16
      rw [h14.2 h16] at h15; cases h15
    | true =>
      clear ho ha hf hc hk h2 h10 h14
      kinds h13 <;> first | (cases h15; done) | skip
      obtain ⟨x, rfl, h16⟩ := fits_one hf
      obtain ⟨t, rfl, h17⟩ := fits_tok h16
      exact .string h5 h11 h12 h17 h6 h7 h8

/-! ## Types -/

/-- A type as argument of a generic type. -/
def ParamT (c : Cfg) (n : Node) : Prop := Fits c (.cat .typeInfo) n ∧ led n = false

/-- The token does not start `typeof(…)`. -/
abbrev NotTypeof (t : TokRef) : Prop := tokenNamed c!"typeof" t = false

inductive TyV (c : Cfg) : Node → Prop
  | array {a b : TokRef} {o : Option TokRef} {ty : Node} : Sym a .leftBrace → Sym b .rightBrace → AccessF o → Fits c (.cat .typeInfo) ty → single ty = true →
    (o = none → startsTok accessTok ty = false) → TyV c (.node .tyArray [span a b, optTok o, ty])
  | name {t : TokRef} : Nam t → NotTypeof t → TyV c (.node .tyBasic [.tok t])
  | nil {t : TokRef} : Sym t .kNil → TyV c (.node .tyBasic [.tok t])
  | string {t : TokRef} : t.token.type.kind = .stringLiteral → TyV c (.node .tyString [.tok t])
  | boolean {t : TokRef} : Sym t .kTrue ∨ Sym t .kFalse → TyV c (.node .tyBoolean [.tok t])
  | callback {g : Option Node} {a b u : TokRef} {args : Punctuated Arg} {r : Node} :
    (∀ m, g = some m → Fits c (.cat .genericDecl) m ∧ ∀ p ∈ genericParams (.some m), hasDefault p = false) → Sym a .leftParen → Sym b .rightParen →
    args = .new ∨ ArgsF c args.pairs → Sym u .thinArrow → Fits c (.cat .typeInfo) r → led r = false →
    TyV c (.node .tyCallback [optNode g, span a b, punct ⟨args.pairs.map (Pair.map Arg.node)⟩, .tok u, r])
  | generic {t a b : TokRef} {ts : Punctuated Node} : Nam t → NotTypeof t → Sym a .lessThan → Sym b .greaterThan → AnyF (ParamT c) .comma ts →
    TyV c (.node .tyGeneric [.tok t, span a b, punct ts])
  | pack {t e : TokRef} : Nam t → Sym e .ellipsis → TyV c (.node .tyGenericPack [.tok t, .tok e])
  | module {t d x : TokRef} : Nam t → NotTypeof t → Sym d .dot → Nam x → TyV c (.node .tyModule [.tok t, .tok d, .node .idxBasic [.tok x]])
  | moduleGeneric {t d x a b : TokRef} {ts : Punctuated Node} : Nam t → NotTypeof t → Sym d .dot → Nam x → Sym a .lessThan → Sym b .greaterThan →
    AnyF (ParamT c) .comma ts → TyV c (.node .tyModule [.tok t, .tok d, .node .idxGeneric [.tok x, span a b, punct ts]])
  | optional {ty : Node} {q : TokRef} : MemberF c ty → openCallback ty = false → Sym q .questionMark → TyV c (.node .tyOptional [ty, .tok q])
  | table {a b : TokRef} {fs : Punctuated Node} : Sym a .leftBrace → Sym b .rightBrace → PEl (TypeFieldV c) [.comma, .semicolon] fs → Sep .trailing fs →
    ((fs.pairs.map Pair.value).filter indexer).length ≤ 1 → TyV c (.node .tyTable [span a b, punct fs])
  | typeof {t a b : TokRef} {e : Node} : Wrd t c!"typeof" → Sym a .leftParen → Sym b .rightParen → Fits c .expr e →
    TyV c (.node .tyTypeof [.tok t, span a b, e])
  | tuple {a b : TokRef} {args : Punctuated Arg} : Sym a .leftParen → Sym b .rightParen → args = .new ∨ ArgsF c args.pairs →
    (∀ x ∈ args.pairs.map Pair.value, x.name = none) → TyV c (.node .tyTuple [span a b, punct ⟨args.pairs.map (Pair.map Arg.type)⟩])
  | union {o : Option TokRef} {ps : List (Pair Node)} : (∀ t, o = some t → Sym t .pipe) → MembersF c (fun _ => True) .pipe o.isSome ps → (o = none → 2 ≤ ps.length) →
    TyV c (.node .tyUnion [.node .typeUnion [optTok o, punct ⟨ps⟩]])
  | intersection {o : Option TokRef} {ps : List (Pair Node)} : (∀ t, o = some t → Sym t .ampersand) →
    MembersF c (fun m => isOne [.tyOptional] m = false) .ampersand o.isSome ps → (o = none → 2 ≤ ps.length) →
    TyV c (.node .tyIntersection [.node .typeIntersection [optTok o, punct ⟨ps⟩]])
  | variadic {e : TokRef} {ty : Node} : Sym e .ellipsis → Fits c (.cat .typeInfo) ty → single ty = true → TyV c (.node .tyVariadic [.tok e, ty])

theorem view_types {n : Node} (h : Fits c Part.types n) (h' : ∀ m ∈ elements n, led m = false) : ∃ ts, n = punct ts ∧ AnyF (ParamT c) .comma ts := by
  obtain ⟨ts, rfl, h1, h2⟩ := fits_list h
  refine ⟨ts, rfl, ?_⟩
  rcases listF_any h1 h2 with rfl | h3
  · exact .inl rfl
  · exact .inr (h3.both fun m hm => h' m (by rw [elements_punct]; exact hm))

theorem starts_tok {p : TokRef → Bool} {t : TokRef} (h : startsTok p (.tok t) = false) : p t = false := by
  simpa [startsTok] using h

theorem word_typeof {n : Node} (h : Fits c (.tok (.word [c!"typeof"])) n) : ∃ t, n = .tok t ∧ Wrd t c!"typeof" := fits_word h

theorem pair_value_map {f : α → β} (l : List (Pair α)) : (l.map (Pair.map f)).map Pair.value = (l.map Pair.value).map f := by
  simp [Function.comp_def, map_value]

theorem lead_some {o : Option TokRef} (h : o.isSome = true) : isOne [.absent] (optTok o) = false := by
  cases o with
  | none => cases h
  | some t => rfl

theorem view_tyCallback (hl : c.luau = true) {cs : List Node} (hf : FitsAll c (production c.feat .tyCallback) cs) (ho : Fine c .tyCallback cs) : TyV c (.node .tyCallback cs) := by
  obtain ⟨g, cs, rfl, h1, hf⟩ := fitsAll_cons hf
  obtain ⟨s, args, u, r, rfl, h2, h3, h4, h5⟩ := fits_four hf
  obtain ⟨a, b, rfl, h6, h7⟩ := fits_span h2
  obtain ⟨args, rfl, h8, h9⟩ := fits_list h3
  obtain ⟨u, rfl, h10⟩ := fits_sym h4
  obtain ⟨h11, h12, h13, h14⟩ := ho.2 hl
  rw [elements_punct] at h13 h14
  have hg : ∃ o : Option Node, g = optNode o ∧ ∀ m, o = some m → Fits c (.cat .genericDecl) m ∧ ∀ p ∈ genericParams (.some m), hasDefault p = false := by
    rcases fits_opt h1 with rfl | ⟨m, rfl, hm⟩
    · exact ⟨none, rfl, nofun⟩
    · exact ⟨some m, rfl, by rintro _ ⟨⟩; exact ⟨hm, h11⟩⟩
  obtain ⟨o, rfl, hg⟩ := hg
  rcases listF_any h8 h9 with rfl | h15
  · exact .callback (args := .new) hg h6 h7 (.inl rfl) h10 h5 h12
  · obtain ⟨ps⟩ := args
    obtain ⟨as, rfl, h16⟩ := view_typeArgs h15
    rw [pair_value_map] at h13 h14
    refine .callback (args := ⟨as⟩) hg h6 h7 (.inr (args_of h16 (fun a ha => ?_) fun a ha => ?_)) h10 h5 h12
    · exact h13 a.node (by rw [← List.map_dropLast]; exact List.mem_map_of_mem ha) _ _ (argType_node a)
    · rcases h14 a.node (by rw [List.getLast?_map, ha]; rfl) _ _ (argType_node a) with h | ⟨h, h'⟩
      · exact .inl h
      · exact .inr ⟨by simpa using h, h'⟩

theorem view_tyIntersection (hl : c.luau = true) {cs : List Node} (hf : FitsAll c (production c.feat .tyIntersection) cs) (ho : Fine c .tyIntersection cs) : TyV c (.node .tyIntersection cs) := by
  obtain ⟨n, rfl, h1⟩ := fits_one hf
  clear ho hf
  kinds h1
  obtain ⟨x, y, rfl, h1, h2⟩ := fits_two hf
  obtain ⟨o, rfl, h3⟩ := fits_optTok h1
  obtain ⟨⟨ps⟩, rfl, h4, h5⟩ := fits_list h2
  obtain ⟨⟨h6, h7, h8, h9, h10⟩, h11⟩ := ho.2 hl
  rw [elements_punct] at h6 h7 h8 h9 h10 h11
  refine .intersection (fun t ht => is_iff.1 (Is_sym.1 (h3 t ht))) (members_of _ (listF_nonempty h4 h5) h6 h7 h8 (fun hb => h9 (lead_some hb)) h11) fun ho => ?_
  subst ho
  simpa using h10 rfl

theorem view_tyModule (hl : c.luau = true) {cs : List Node} (hf : FitsAll c (production c.feat .tyModule) cs) (ho : Fine c .tyModule cs) : TyV c (.node .tyModule cs) := by
  obtain ⟨x, y, z, rfl, h1, h2, h3⟩ := fits_three hf
  obtain ⟨t, x, rfl, h4⟩ := fits_name h1
  obtain ⟨d, rfl, h5⟩ := fits_sym h2
  have h6 := starts_tok (ho.2 hl)
  clear ho hf
  kinds h3
  case idxBasic =>
    obtain ⟨n, rfl, h7⟩ := fits_one hf
    obtain ⟨y, z, rfl, h8⟩ := fits_name h7
    exact .module ⟨x, h4⟩ h6 h5 ⟨z, h8⟩
  case idxGeneric =>
    obtain ⟨n, s, ts, rfl, h7, h8, h9⟩ := fits_three hf
    obtain ⟨y, z, rfl, h10⟩ := fits_name h7
    obtain ⟨a, b, rfl, h11, h12⟩ := fits_span h8
    obtain ⟨ts, rfl, h13⟩ := view_types h9 (ho.2 hl)
    exact .moduleGeneric ⟨x, h4⟩ h6 h5 ⟨z, h10⟩ h11 h12 h13

theorem view_tyTuple (hl : c.luau = true) {cs : List Node} (hf : FitsAll c (production c.feat .tyTuple) cs) (ho : Fine c .tyTuple cs) : TyV c (.node .tyTuple cs) := by
  obtain ⟨s, ts, rfl, h1, h2⟩ := fits_two hf
  obtain ⟨a, b, rfl, h3, h4⟩ := fits_span h1
  obtain ⟨ts, rfl, h5, h6⟩ := fits_list h2
  obtain ⟨h7, h8⟩ := ho.2 hl
  rw [elements_punct] at h7 h8
  rcases listF_any h5 h6 with rfl | h9
  · exact .tuple (args := .new) h3 h4 (.inl rfl) fun _ h => by cases h
  · obtain ⟨ps⟩ := ts
    obtain ⟨as, rfl, h10, h11⟩ := tuple_args h9
    rw [pair_value_map] at h7 h8
    refine .tuple (args := ⟨as⟩) h3 h4 (.inr (args_of h11 (fun a ha => ?_) fun a ha => ?_)) h10
    · exact h7 a.type (by rw [← List.map_dropLast]; exact List.mem_map_of_mem ha)
    · rcases h8 a.type (by rw [List.getLast?_map, ha]; rfl) with h | h
      · exact .inl h
      · exact .inr ⟨h10 a (List.mem_of_getLast? ha), h⟩

theorem view_tyUnion (hl : c.luau = true) {cs : List Node} (hf : FitsAll c (production c.feat .tyUnion) cs) (ho : Fine c .tyUnion cs) : TyV c (.node .tyUnion cs) := by
  obtain ⟨n, rfl, h1⟩ := fits_one hf
  clear ho hf
  kinds h1
  obtain ⟨x, y, rfl, h1, h2⟩ := fits_two hf
  obtain ⟨o, rfl, h3⟩ := fits_optTok h1
  obtain ⟨⟨ps⟩, rfl, h4, h5⟩ := fits_list h2
  obtain ⟨h6, h7, h8, h9, h10⟩ := ho.2 hl
  rw [elements_punct] at h6 h7 h8 h9 h10
  refine .union (fun t ht => is_iff.1 (Is_sym.1 (h3 t ht))) (members_of _ (listF_nonempty h4 h5) h6 h7 h8 (fun hb => h9 (lead_some hb)) fun _ _ => trivial) fun ho => ?_
  subst ho
  simpa using h10 rfl

theorem view_ty (hl : c.luau = true) {n : Node} (h : Fits c (.cat .typeInfo) n) : TyV c n := by
  kinds h
  case tyArray =>
    obtain ⟨s, o, ty, rfl, h1, h2, h3⟩ := fits_three hf
    obtain ⟨a, b, rfl, h4, h5⟩ := fits_span h1
    obtain ⟨o, rfl, h6⟩ := fits_access h2
    have h7 := ho.2 hl
    refine .array h4 h5 h6 (fits_type h3).1 h7.1 fun ho => ?_
    subst ho
    exact h7.2 rfl
  case tyBasic =>
    obtain ⟨n, rfl, h1⟩ := fits_one hf
    obtain ⟨t, rfl, h2⟩ := fits_tok h1
    rcases h2 with h2 | h2
    · exact .name h2 (starts_tok (ho.2 hl))
    · exact .nil h2
  case tyString => obtain ⟨n, rfl, h1⟩ := fits_one hf; obtain ⟨t, rfl, h2⟩ := fits_tok h1; exact .string h2
  case tyBoolean =>
    obtain ⟨n, rfl, h1⟩ := fits_one hf
    obtain ⟨t, rfl, s, hs, h2⟩ := fits_tok h1
    refine .boolean ?_
    simp only [List.mem_cons, List.not_mem_nil, or_false] at hs
    rcases hs with rfl | rfl
    · exact .inl h2
    · exact .inr h2
  case tyCallback => exact view_tyCallback hl hf ho
  case tyGeneric =>
    obtain ⟨x, s, ts, rfl, h1, h2, h3⟩ := fits_three hf
    obtain ⟨t, x, rfl, h4⟩ := fits_name h1
    obtain ⟨a, b, rfl, h5, h6⟩ := fits_span h2
    obtain ⟨h7, h8⟩ := ho.2 hl
    obtain ⟨ts, rfl, h9⟩ := view_types h3 h8
    exact .generic ⟨x, h4⟩ (starts_tok h7) h5 h6 h9
  case tyGenericPack =>
    obtain ⟨x, y, rfl, h1, h2⟩ := fits_two hf
    obtain ⟨t, x, rfl, h4⟩ := fits_name h1
    obtain ⟨e, rfl, h5⟩ := fits_sym h2
    exact .pack ⟨x, h4⟩ h5
  case tyIntersection => exact view_tyIntersection hl hf ho
  case tyModule => exact view_tyModule hl hf ho
  case tyOptional =>
    obtain ⟨ty, q, rfl, h1, h2⟩ := fits_two hf
    obtain ⟨q, rfl, h3⟩ := fits_sym h2
    obtain ⟨h4, h5, h6⟩ := ho.2 hl
    exact .optional ⟨(fits_type h1).1, (fits_type h1).2, h4, h6⟩ h5 h3
  case tyTable =>
    obtain ⟨s, fs, rfl, h1, h2⟩ := fits_two hf
    obtain ⟨a, b, rfl, h3, h4⟩ := fits_span h1
    obtain ⟨fs, rfl, h5, h6⟩ := fits_list h2
    have h7 := ho.2 hl
    simp only [Chosen, elements_punct] at h7
    exact .table h3 h4 (fun x hx => ⟨view_typeField hl (h5 x hx).1, (h5 x hx).2⟩) h6 h7
  case tyTypeof =>
    obtain ⟨x, s, e, rfl, h1, h2, h3⟩ := fits_three hf
    obtain ⟨t, rfl, h4⟩ := word_typeof h1
    obtain ⟨a, b, rfl, h5, h6⟩ := fits_span h2
    exact .typeof h4 h5 h6 h3
  case tyTuple => exact view_tyTuple hl hf ho
  case tyUnion => exact view_tyUnion hl hf ho
  case tyVariadic =>
    obtain ⟨e, ty, rfl, h1, h2⟩ := fits_two hf
    obtain ⟨e, rfl, h3⟩ := fits_sym h1
    exact .variadic h3 (fits_type h2).1 (ho.2 hl)
  case tyVariadicPack => cases ha

/-! ## Generic declarations -/

inductive ParamV (c : Cfg) : Node → Prop
  | name {t : TokRef} : Nam t → ParamV c (genericParam (.node .genericName [.tok t]) none)
  | nameDefault {t e : TokRef} {ty : Node} : Nam t → Sym e .equal → Fits c (.cat .typeInfo) ty → single ty = true →
    ParamV c (genericParam (.node .genericName [.tok t]) (some (.node .tuple [.tok e, ty])))
  | pack {t d : TokRef} : Nam t → Sym d .ellipsis → ParamV c (genericParam (.node .genericVariadic [.tok t, .tok d]) none)
  | packDefault {t d e : TokRef} {ty : Node} : Nam t → Sym d .ellipsis → Sym e .equal → Fits c (.cat .typeInfo) ty →
    isOne [.tyVariadic, .tyGenericPack, .tyTuple] ty = true →
    ParamV c (genericParam (.node .genericVariadic [.tok t, .tok d]) (some (.node .tuple [.tok e, ty])))

theorem view_param' (hl : c.luau = true) {n : Node} (h : Fits c (.cat .genericDeclParam) n) : ParamV c n := by
  kinds h
  obtain ⟨p, d, rfl, h1, h2⟩ := fits_two hf
  have h3 := ho.2 hl
  clear ho ha hf hc hk h
  kinds h1
  case genericName =>
    obtain ⟨n, rfl, h4⟩ := fits_one hf
    obtain ⟨t, x, rfl, h5⟩ := fits_name h4
    rcases fits_opt h2 with rfl | ⟨m, rfl, h6⟩
    · exact .name ⟨x, h5⟩
    · obtain ⟨e, ty, rfl, h7, h8⟩ := fits_pair h6
      obtain ⟨e, rfl, h9⟩ := fits_sym h7
      exact .nameDefault ⟨x, h5⟩ h9 h8 (h3.1 rfl)
  case genericVariadic =>
    obtain ⟨n, y, rfl, h4, h10⟩ := fits_two hf
    obtain ⟨t, x, rfl, h5⟩ := fits_name h4
    obtain ⟨d, rfl, h11⟩ := fits_sym h10
    rcases fits_opt h2 with rfl | ⟨m, rfl, h6⟩
    · exact .pack ⟨x, h5⟩ h11
    · obtain ⟨e, ty, rfl, h7, h8⟩ := fits_pair h6
      obtain ⟨e, rfl, h9⟩ := fits_sym h7
      exact .packDefault ⟨x, h5⟩ h11 h9 h8 (h3.2 rfl)

/-- The parameters after some that include a pack or a default. -/
inductive ParamsV (c : Cfg) : List (Pair Node) → Prop
  | last {n : Node} : ParamV c n → ParamsV c [.end n]
  | cons {n : Node} {u : TokRef} {ps : List (Pair Node)} : ParamV c n → Sym u .comma → (packParam n = true → ∀ m ∈ ps.map Pair.value, packParam m = true) →
    (hasDefault n = true → ∀ m ∈ ps.map Pair.value, hasDefault m = true) → ParamsV c ps → ParamsV c (.punctuated n u :: ps)

theorem params_of (hl : c.luau = true) : ∀ {ps : List (Pair Node)}, ListF (Fits c (.cat .genericDeclParam)) .comma ps →
    (ps.map Pair.value).Pairwise (fun a b => (packParam a = true → packParam b = true) ∧ (hasDefault a = true → hasDefault b = true)) → ParamsV c ps := by
  intro ps h
  induction h with
  | last ha => intro _; exact .last (view_param' hl ha)
  | cons ha hu _ ih =>
    intro h
    rw [List.map_cons, List.pairwise_cons] at h
    exact .cons (view_param' hl ha) hu (fun hp m hm => (h.1 m hm).1 hp) (fun hp m hm => (h.1 m hm).2 hp) (ih h.2)

theorem view_genericDecl {n : Node} (h : Fits c (.cat .genericDecl) n) : c.luau = true ∧ ∃ a b ps, n = .node .genericDecl [span a b, punct ⟨ps⟩] ∧ Sym a .lessThan ∧
    Sym b .greaterThan ∧ ParamsV c ps := by
  kinds h
  have hl : c.luau = true := by simpa using ha
  obtain ⟨s, y, rfl, h1, h2⟩ := fits_two hf
  obtain ⟨a, b, rfl, h3, h4⟩ := fits_span h1
  obtain ⟨⟨ps⟩, rfl, h5, h6⟩ := fits_list h2
  have h7 := ho.2 hl
  simp only [Chosen, elements_punct] at h7
  exact ⟨hl, a, b, ps, rfl, h3, h4, params_of hl (listF_nonempty h5 h6) h7⟩

theorem view_typeInst {n : Node} (h : Fits c (.cat .typeInst) n) : c.luau = true ∧ ∃ a b x y ts, n = .node .typeInst [span a b, span x y, punct ts] ∧
    Sym a .lessThan ∧ Sym b .greaterThan ∧ Sym x .lessThan ∧ Sym y .greaterThan ∧ AnyF (ParamT c) .comma ts := by
  kinds h
  have hl : c.luau = true := by simpa using ha
  obtain ⟨s, s', ts, rfl, h1, h2, h3⟩ := fits_three hf
  obtain ⟨a, b, rfl, h4, h5⟩ := fits_span h1
  obtain ⟨x, y, rfl, h6, h7⟩ := fits_span h2
  obtain ⟨ts, rfl, h8⟩ := view_types h3 (ho.2 hl)
  exact ⟨hl, a, b, x, y, ts, rfl, h4, h5, h6, h7, h8⟩

theorem view_typeDecl (hl : c.luau = true) {n : Node} (h : Fits c (.cat .typeDecl) n) : ∃ (t x e : TokRef) (g : Option Node) (ty : Node), n = .node .typeDecl [.tok t, .tok x, optNode g, .tok e, ty] ∧
    Wrd t c!"type" ∧ Nam x ∧ (∀ m, g = some m → Fits c (.cat .genericDecl) m) ∧ Sym e .equal ∧ Fits c (.cat .typeInfo) ty ∧ single ty = true := by
  kinds h
  obtain ⟨t, cs, rfl, h1, hf⟩ := fitsAll_cons hf
  obtain ⟨x, g, e, ty, rfl, h2, h3, h4, h5⟩ := fits_four hf
  obtain ⟨t, rfl, h6⟩ := fits_word h1
  obtain ⟨x, y, rfl, h7⟩ := fits_name h2
  obtain ⟨e, rfl, h8⟩ := fits_sym h4
  rcases fits_opt h3 with rfl | ⟨m, rfl, hm⟩
  · exact ⟨t, x, e, none, ty, rfl, h6, ⟨y, h7⟩, nofun, h8, (fits_type h5).1, ho.2 hl⟩
  · exact ⟨t, x, e, some m, ty, rfl, h6, ⟨y, h7⟩, by rintro _ ⟨⟩; exact hm, h8, (fits_type h5).1, ho.2 hl⟩

theorem view_typeFunction {n : Node} (h : Fits c (.cat .typeFunction) n) : ∃ t f x b, n = .node .typeFunction [.tok t, .tok f, .tok x, b] ∧
    Wrd t c!"type" ∧ Sym f .kFunction ∧ Nam x ∧ Fits c (.cat .funcBody) b := by
  kinds h
  obtain ⟨t, f, x, b, rfl, h1, h2, h3, h4⟩ := fits_four hf
  obtain ⟨t, rfl, h6⟩ := fits_word h1
  obtain ⟨f, rfl, h7⟩ := fits_sym h2
  obtain ⟨x, y, rfl, h8⟩ := fits_name h3
  exact ⟨t, f, x, b, rfl, h6, h7, ⟨y, h8⟩, h4⟩

theorem view_elseIfExpr {n : Node} (h : Fits c (.cat .elseIfExpr) n) : ∃ a e th e', n = .node .elseIfExpr [.tok a, e, .tok th, e'] ∧ Sym a .kElseIf ∧ Fits c .expr e ∧
    Sym th .kThen ∧ Fits c .expr e' := by
  kinds h
  obtain ⟨a, e, th, e', rfl, h1, h2, h3, h4⟩ := fits_four hf
  obtain ⟨a, rfl, h5⟩ := fits_sym h1
  obtain ⟨th, rfl, h6⟩ := fits_sym h3
  exact ⟨a, e, th, e', rfl, h5, h2, h6, h4⟩

theorem view_interpSegment (hl : c.luau = true) {n : Node} (h : Fits c (.cat .interpSegment) n) : ∃ t e, n = .node .interpSegment [.tok t, e] ∧
    t.token.type.kind = .interpolatedString ∧ Fits c .expr e ∧ (t.trailing = [] → startsTok (tokenIs .leftBrace) e = false) := by
  kinds h
  obtain ⟨t, e, rfl, h1, h2⟩ := fits_two hf
  obtain ⟨t, rfl, h3⟩ := fits_tok h1
  exact ⟨t, e, rfl, h3, h2, ho.2 hl⟩

end FM.Parser.Forward
