import Verif.Proofs.Later
import Verif.Proofs.Building

/-!
# Neighbours

Which tokens stand next to each other in trees of the grammar without Luau and CfxLua: behind an operator or a colon no
token with whose text theirs could be joined to a symbol of a later version.
-/

namespace FM.Spec
open FM FM.Parser

variable {c : Cfg}

/-- The first part of a symbol of a later version.  `b`: Lua 5.3 is active. -/
def opens (b : Bool) (y : Symbol) : Bool :=
  [Symbol.slash, .plus, .minus, .star, .caret, .percent, .twoDots, .doubleLessThan, .doubleGreaterThan, .ampersand, .pipe].contains y ||
  (!b && [Symbol.colon, .lessThan, .greaterThan].contains y)

/-- A character with which such a symbol goes on. -/
def goesWith (ch : Char) : Bool := [':', '/', '<', '>', '=', '*'].contains ch

def opensType (b : Bool) : TokenType → Bool
  | .symbol y => opens b y
  | _ => false

def closesType : TokenType → Bool
  | .symbol y => startsWith goesWith y.text
  | _ => false

/-- No token that starts such a symbol is followed by one that goes on with it. -/
def Apart (b : Bool) : List TokenType → Prop
  | t :: u :: ts => ¬ (opensType b t = true ∧ closesType u = true) ∧ Apart b (u :: ts)
  | _ => True

/-- What is known of tokens: whether the first may be one that goes on, whether the last may be one that starts, whether there is one. -/
structure Info where
  s : Bool
  e : Bool
  n : Bool
  deriving DecidableEq, Repr

structure Info.Ok (b : Bool) (i : Info) (l : List TokenType) : Prop where
  apart : Apart b l
  first : i.s = false → ∀ t, l.head? = some t → closesType t = false
  last : i.e = false → ∀ t, l.getLast? = some t → opensType b t = false
  some : i.n = true → l ≠ []

theorem apart_append {b : Bool} : ∀ {l m : List TokenType}, Apart b l → Apart b m →
    (∀ t u, l.getLast? = some t → m.head? = some u → ¬ (opensType b t = true ∧ closesType u = true)) → Apart b (l ++ m)
  | [], m, _, hm, _ => hm
  | [t], [], _, _, _ => trivial
  | [t], u :: m, _, hm, h => ⟨h t u rfl rfl, hm⟩
  | t :: u :: l, m, hl, hm, h => ⟨hl.1, apart_append (l := u :: l) hl.2 hm fun x y hx hy => h x y (by simpa [List.getLast?_cons_cons] using hx) hy⟩

/-- Both behind each other. -/
def Info.and (i j : Info) : Option Info :=
  if i.e && j.s then none else some ⟨i.s || (!i.n && j.s), j.e || (!j.n && i.e), i.n || j.n⟩

theorem Info.Ok.append {b : Bool} {i j k : Info} {l m : List TokenType} (hi : i.Ok b l) (hj : j.Ok b m) (h : i.and j = Option.some k) :
    k.Ok b (l ++ m) := by
  unfold Info.and at h
  split at h
  · cases h
  rename_i hn
  cases h
  refine ⟨apart_append hi.apart hj.apart ?_, ?_, ?_, ?_⟩
  · intro t u ht hu hh
    simp only [Bool.and_eq_true, not_and, Bool.not_eq_true] at hn
    cases he : i.e with
    | false => rw [hi.last he t ht] at hh; cases hh.1
    | true => rw [hj.first (hn he) u hu] at hh; cases hh.2
  · intro hs t ht
    simp only [Bool.or_eq_false_iff, Bool.and_eq_false_imp, Bool.not_eq_true'] at hs
    cases l with
    | nil =>
      have : i.n = false := by cases hx : i.n; rfl; exact absurd rfl (hi.some hx)
      exact hj.first (hs.2 this) t ht
    | cons x l => exact hi.first hs.1 t ht
  · intro hs t ht
    simp only [Bool.or_eq_false_iff, Bool.and_eq_false_imp, Bool.not_eq_true'] at hs
    cases m with
    | nil =>
      have : j.n = false := by cases hx : j.n; rfl; exact absurd rfl (hj.some hx)
      exact hi.last (hs.2 this) t (by simpa using ht)
    | cons x m =>
      rw [List.getLast?_append] at ht
      refine hj.last hs.1 t ?_
      cases hm : (x :: m).getLast? with
      | none => simp at hm
      | some y => rw [hm] at ht; exact ht
  · intro hs
    simp only [Bool.or_eq_true] at hs
    rcases hs with hs | hs
    · simp [hi.some hs]
    · simp [hj.some hs]

theorem Info.ok_nil {b : Bool} (s e : Bool) : (Info.mk s e false).Ok b [] := ⟨trivial, nofun, nofun, nofun⟩

/-- Weaker knowledge. -/
def Info.le (i j : Info) : Bool := (!i.s || j.s) && (!i.e || j.e) && (!j.n || i.n)

theorem Info.Ok.le {b : Bool} {i j : Info} {l : List TokenType} (h : i.Ok b l) (hij : i.le j = true) : j.Ok b l := by
  obtain ⟨s, e, n⟩ := i
  obtain ⟨s', e', n'⟩ := j
  simp only [Info.le, Bool.and_eq_true, Bool.or_eq_true, Bool.not_eq_true'] at hij
  refine ⟨h.apart, fun hs => h.first ?_, fun he => h.last ?_, fun hn => h.some ?_⟩
  · dsimp only at hs ⊢; simpa [hs] using hij.1.1
  · dsimp only at he ⊢; simpa [he] using hij.1.2
  · dsimp only at hn ⊢; simpa [hn] using hij.2

theorem Info.ok_quiet {b : Bool} {l : List TokenType} (h : ∀ t ∈ l, opensType b t = false) : (Info.mk true false false).Ok b l := by
  refine ⟨?_, nofun, fun _ t ht => h t (List.mem_of_getLast? ht), nofun⟩
  induction l with
  | nil => trivial
  | cons t l ih =>
    cases l with
    | nil => trivial
    | cons u l => exact ⟨(fun hh => by rw [h t (by simp)] at hh; exact absurd hh.1 (by simp)), ih fun x hx => h x (by simp [hx])⟩

def Info.seq : Info → List Info → Option Info
  | i, [] => some i
  | i, j :: js => (i.and j).bind (·.seq js)

/-- Several lists, one behind the other. -/
inductive Info.Oks (b : Bool) : List Info → List TokenType → Prop where
  | nil : Oks b [] []
  | cons {i is l m} : Info.Ok b i l → Oks b is m → Oks b (i :: is) (l ++ m)

theorem Info.Ok.seq {b : Bool} {is : List Info} {m : List TokenType} (h : Info.Oks b is m) : ∀ {i k : Info} {l : List TokenType}, i.Ok b l → i.seq is = Option.some k → k.Ok b (l ++ m) := by
  induction h with
  | nil => intro i k l hl h; cases h; simpa using hl
  | cons hi _ ih =>
    intro i k l hl h
    simp only [Info.seq, Option.bind_eq_some_iff] at h
    obtain ⟨x, hx, h⟩ := h
    rw [← List.append_assoc]
    exact ih (hl.append hi hx) h

def Term.info (b : Bool) : Term → Info
  | .sym ss => ⟨ss.any fun y => startsWith goesWith y.text, ss.any (opens b), true⟩
  | _ => ⟨false, false, true⟩

/-- Node types of which there are none without Luau, and before Lua 5.4. -/
def deadCats : List Cat := [.typeSpec, .genericDecl, .typeInst]

/-- Node types that do not occur without Luau and CfxLua. -/
def farCats : List Cat := [.typeInfo, .typeUnion, .typeIntersection, .indexedType, .typeField, .typeFieldKey, .typeAssertion, .typeDecl,
  .genericParam, .genericDeclParam, .typeArg, .exportedTypeDecl, .typeFunction, .exportedTypeFunction, .ifExpr, .elseIfExpr,
  .interpString, .interpSegment, .compoundAssignment, .compoundOp]

def Cat.info : Cat → Info
  | .binOp => ⟨true, true, true⟩
  | .unOp => ⟨false, true, true⟩
  | .suffix | .call | .methodCall | .stmt | .label | .attribute => ⟨true, false, true⟩
  | .block => ⟨true, false, false⟩
  | _ => ⟨false, false, true⟩

def Part.info (b : Bool) : Part → Info
  | .tok t => t.info b
  | .cat a => Cat.info a
  | .opt p => { p.info b with n := false }
  | .many p => { p.info b with n := false }
  | .some p => p.info b
  | .list p _ style => { p.info b with n := style == .nonempty && (p.info b).n }
  | .pair p q => ((p.info b).and (q.info b)).getD ⟨true, true, false⟩
  | .span _ _ | .type => ⟨true, true, false⟩

/-- The claim is made for the part. -/
def Part.near (b : Bool) : Part → Bool
  | .tok _ => true
  | .cat a => !farCats.contains a
  | .opt p => p.near b
  | .many p | .some p => p.near b && !((p.info b).s && (p.info b).e)
  | .list p seps _ => p.near b && !(p.info b).s && !(p.info b).e && (p.info b).n && seps.all fun y => !startsWith goesWith y.text && !opens b y
  | .pair p q => p.near b && q.near b && ((p.info b).and (q.info b)).isSome
  | .span _ _ | .type => false

/-- The kind does not occur. -/
def far (b : Bool) (k : Kind) : Bool := luauKinds.contains k || k == .stmtCompound || k == .tyVariadicPack || (!b && k == .attribute)

/-- The parts of the production follow each other without neighbours that go together. -/
def goodParts (b : Bool) (ps : List Part) (a : Cat) : Bool :=
  (ps.all (·.near b)) && ((Info.seq ⟨false, false, false⟩ (ps.map (·.info b))).any (·.le (Cat.info a)))

theorem plain_good (b : Bool) (f : Features) (k : Kind) (a : Cat) (h : k.cat = some a) (hl : k.layout = none) (ha : farCats.contains a = false)
    (hk : far b k = false) : goodParts b (production f k) a = true := by
  obtain ⟨f1, f2, f3, f4, f5, f6⟩ := f
  cases k with
  | binOp o => cases h; cases o <;> cases b <;> rfl
  | unOp o => cases h; cases o <;> cases b <;> rfl
  | compoundOp o => cases h; cases ha
  | _ => first | (cases h; done) | (cases h; first | (cases ha; done) | (cases hl; done) | (cases b <;> first | (cases hk; done) | (cases f6 <;> rfl)))

abbrev typesOf (l : List TokRef) : List TokenType := l.map fun t => t.token.type

theorem conformsAll_cons {p : Part} {ps : List Part} {cs : List Node} (h : ConformsAll c (p :: ps) cs) :
    ∃ x xs, cs = x :: xs ∧ Conforms c p x ∧ ConformsAll c ps xs := by
  cases cs with
  | nil => simp [ConformsAll] at h
  | cons x xs => rw [ConformsAll] at h; exact ⟨x, xs, rfl, h⟩

theorem conformsAll_nil {cs : List Node} (h : ConformsAll c [] cs) : cs = [] := by
  cases cs with
  | nil => rfl
  | cons x xs => simp [ConformsAll] at h

theorem conforms_sym {ss : List Symbol} {n : Node} (h : Conforms c (.tok (.sym ss)) n) : ∃ t s, n = .tok t ∧ s ∈ ss ∧ t.token.type = .symbol s := by
  cases n with
  | tok t => rw [Conforms] at h; obtain ⟨s, h1, h2⟩ := h; exact ⟨t, s, rfl, h1, h2⟩
  | node k cs => simp [Conforms] at h

theorem conforms_span {o e : Symbol} {n : Node} (h : Conforms c (.span o e) n) :
    ∃ t u, n = .spanOf (.tok t) (.tok u) ∧ t.token.type = .symbol o ∧ u.token.type = .symbol e := by
  cases n with
  | tok t => simp [Conforms] at h
  | node k cs =>
    cases k <;> simp only [Conforms] at h
    obtain ⟨x, _, rfl, hx, h⟩ := conformsAll_cons h
    obtain ⟨y, _, rfl, hy, h⟩ := conformsAll_cons h
    obtain rfl := conformsAll_nil h
    obtain ⟨t, _, rfl, ht, ht'⟩ := conforms_sym hx
    obtain ⟨u, _, rfl, hu, hu'⟩ := conforms_sym hy
    simp only [List.mem_singleton] at ht hu
    subst ht hu
    exact ⟨t, u, rfl, ht', hu'⟩

theorem Term.info_ok (b : Bool) {x : Term} {t : TokRef} (h : x.Is t) : (x.info b).Ok b [t.token.type] := by
  have key : ∀ {s e : Bool}, (s = false → closesType t.token.type = false) → (e = false → opensType b t.token.type = false) →
      (Info.mk s e true).Ok b [t.token.type] := fun h1 h2 =>
    ⟨trivial, fun hs u hu => by cases hu; exact h1 hs, fun he u hu => by cases hu; exact h2 he, fun _ => by simp⟩
  cases x with
  | sym ss =>
    obtain ⟨s, hs, e⟩ := h
    refine key (fun h => ?_) fun h => ?_
    · rw [e]; rw [List.any_eq_false] at h; simpa [closesType] using h s hs
    · rw [e]; rw [List.any_eq_false] at h; simpa [opensType] using h s hs
  | name => obtain ⟨s, e⟩ := h; rw [e] at key ⊢; exact key (fun _ => rfl) fun _ => rfl
  | nameOrNil =>
    rcases h with ⟨s, e⟩ | e <;> rw [e] at key ⊢
    · exact key (fun _ => rfl) fun _ => rfl
    · exact key (fun _ => by decide) fun _ => by cases b <;> decide
  | word ws => obtain ⟨s, _, e⟩ := h; rw [e] at key ⊢; exact key (fun _ => rfl) fun _ => rfl
  | string | number | interp =>
    simp only [Term.Is] at h
    generalize t.token.type = ty at h key ⊢
    cases ty <;> first | (cases h; done) | exact key (fun _ => rfl) fun _ => rfl

theorem Info.ok_symbol (b : Bool) {t : TokRef} {s : Symbol} (h : t.token.type = .symbol s) : (Term.info b (.sym [s])).Ok b [t.token.type] :=
  Term.info_ok b ⟨s, by simp, h⟩

/-- Of the flats of the nodes. -/
theorem Info.oks_all {b : Bool} : ∀ {ps : List Part} {cs : List Node}, ConformsAll c ps cs →
    (∀ x ∈ cs, ∀ p, p.near b = true → Conforms c p x → (p.info b).Ok b (typesOf x.flat)) → (∀ p ∈ ps, p.near b = true) →
    Info.Oks b (ps.map (·.info b)) (typesOf (cs.flatMap Node.flat))
  | [], cs, h, _, _ => by obtain rfl := conformsAll_nil h; exact .nil
  | p :: ps, cs, h, ih, hn => by
    obtain ⟨x, xs, rfl, hx, h⟩ := conformsAll_cons h
    rw [List.flatMap_cons, typesOf, List.map_append]
    exact .cons (ih x (by simp) p (hn p (by simp)) hx) (oks_all h (fun y hy => ih y (by simp [hy])) fun q hq => hn q (by simp [hq]))

theorem Info.of_good {b : Bool} {ps : List Part} {a : Cat} (h : goodParts b ps a = true) {l : List TokenType}
    (hl : Info.Oks b (ps.map (·.info b)) l) : (Cat.info a).Ok b l := by
  simp only [goodParts, Bool.and_eq_true, Option.any_eq_true] at h
  obtain ⟨-, i, hi, hle⟩ := h
  have := (Info.ok_nil (b := b) false false).seq hl hi
  exact Info.Ok.le (by simpa using this) hle

theorem names_quiet {b : Bool} {ps as bs : List Node} (hp : ∀ p ∈ ps, ∀ x ∈ p.children, ∀ t ∈ x.flat, opensType b t.token.type = false)
    (ha : ∀ x ∈ as, ∀ t ∈ x.flat, opensType b t.token.type = false) (hb : ∀ x ∈ bs, ∀ t ∈ x.flat, opensType b t.token.type = false) :
    ∀ t ∈ flatNames ps as bs, opensType b t.token.type = false := by
  have part0 : ∀ (l : List Node), (∀ x ∈ l, ∀ t ∈ x.flat, opensType b t.token.type = false) → ∀ i, ∀ t ∈ part (l.map Node.flat) i, opensType b t.token.type = false := by
    intro l
    induction l with
    | nil => intro _ i t ht; simp [part] at ht
    | cons x l ihl =>
      intro hl i t ht
      cases i with
      | zero => exact hl x (by simp) t (by simpa [part] using ht)
      | succ i => exact ihl (fun y hy => hl y (by simp [hy])) i t (by simpa [part] using ht)
  induction ps generalizing as bs with
  | nil => intro t ht; simp [flatNames, joinNames] at ht
  | cons p ps ih =>
    intro t ht
    simp only [flatNames, List.map_cons, joinNames, if_true, List.mem_append] at ht
    rcases ht with (((ht | ht) | ht) | ht) | ht
    · exact part0 _ (hp p (by simp)) _ t ht
    · exact part0 _ ha _ t ht
    · exact part0 _ hb _ t ht
    · exact part0 _ (hp p (by simp)) _ t ht
    · refine ih (as := as.tail) (bs := bs.tail) (fun q hq => hp q (by simp [hq])) (fun x hx => ha x (List.mem_of_mem_tail hx))
        (fun x hx => hb x (List.mem_of_mem_tail hx)) t ?_
      simpa [flatNames] using ht

theorem wraps_good (b : Bool) (f : Features) (k : Kind) (a : Cat) (h : k.cat = some a) (hl : k.wraps = true) (ha : farCats.contains a = false)
    (hd : deadCats.contains a = false) (hk : far b k = false) :
    ∃ o e p, production f k = [.span o e, p] ∧ goodParts b [.tok (.sym [o]), p, .tok (.sym [e])] a = true := by
  obtain ⟨f1, f2, f3, f4, f5, f6⟩ := f
  cases k with
  | binOp o => cases hl
  | unOp o => cases hl
  | compoundOp o => cases hl
  | _ => first | (cases h; done) | (cases h; first | (cases ha; done) | (cases hl; done) | (cases hd; done) | (cases b <;> first | (cases hk; done) | exact ⟨_, _, _, rfl, rfl⟩))

/-- The conditions under which the claim is made. -/
structure Before (c : Cfg) : Prop where
  luau : c.has .luau = false
  cfxlua : c.has .cfxlua = false
  lua54 : c.has .lua54 = true → c.has .lua53 = true

theorem Before.far (hc : Before c) {k : Kind} (h : available c k = true) : Spec.far (c.has .lua53) k = false := by
  unfold Spec.far
  cases k <;> first
    | (simp only [available, luauKinds, Cfg.luau, hc.luau, List.contains_cons, Bool.or_false] at h; exact absurd h (by decide))
    | (simp only [available, Cfg.luau, Cfg.cfxlua, hc.luau, hc.cfxlua, Bool.or_self] at h; exact absurd h (by decide))
    | (simp only [available, Cfg.lua54, Cfg.cfxlua, hc.cfxlua, Bool.or_false] at h; rw [hc.lua54 h]; decide)
    | (cases c.has .lua53 <;> rfl)

theorem Before.dead (hc : Before c) {a : Cat} (ha : deadCats.contains a = true) {n : Node} (h : Conforms c (.cat a) n) : False := by
  cases n with
  | tok t => simp [Conforms] at h
  | node k cs =>
    rw [Conforms] at h
    have hf := hc.far h.2.1
    have h1 := h.1
    cases k <;> cases h1 <;> first | (cases ha; done) | (cases hf; done)

theorem quiet_names {p : Part} {seps : List Symbol} {b : Bool} (hs : seps.all (fun y => !opens b y) = true)
    (hp : ∀ x, Conforms c p x → ∀ t ∈ x.flat, opensType b t.token.type = false) {ps : List Node} (h : ConformsPairs c p seps ps) :
    ∀ q ∈ ps, ∀ x ∈ q.children, ∀ t ∈ x.flat, opensType b t.token.type = false := by
  induction ps with
  | nil => nofun
  | cons q ps ih =>
    unfold ConformsPairs at h
    split at h
    · rename_i e; cases e
    · rename_i e; cases e
      intro q hq
      rcases List.mem_cons.1 hq with rfl | hq
      · obtain ⟨x, _, rfl, hx, h'⟩ := conformsAll_cons h.1
        obtain rfl := conformsAll_nil h'
        simpa [Node.children] using hp x hx
      · exact ih h.2 q hq
    · rename_i e; cases e
      intro q hq
      rcases List.mem_cons.1 hq with rfl | hq
      · obtain ⟨x, _, rfl, hx, h'⟩ := conformsAll_cons h.1
        obtain ⟨y, _, rfl, hy, h'⟩ := conformsAll_cons h'
        obtain rfl := conformsAll_nil h'
        obtain ⟨t, s, rfl, h1, h2⟩ := conforms_sym hy
        rw [List.all_eq_true] at hs
        intro z hz
        simp only [Node.children, List.mem_cons, List.not_mem_nil, or_false] at hz
        rcases hz with rfl | rfl
        · exact hp _ hx
        · simp only [Node.flat_tok, List.mem_singleton, forall_eq, h2, opensType]
          simpa using hs s h1
      · exact ih h.2 q hq
    · exact h.elim

theorem quiet_name {b : Bool} {x : Node} (h : Conforms c .name x) : ∀ t ∈ x.flat, opensType b t.token.type = false := by
  cases x with
  | tok t => rw [Conforms] at h; obtain ⟨s, e⟩ := h; simp [e, opensType]
  | node k cs => simp [Conforms] at h

theorem quiet_param {b : Bool} {x : Node} (h : Conforms c (.cat .param) x) : ∀ t ∈ x.flat, opensType b t.token.type = false := by
  cases x with
  | tok t => simp [Conforms] at h
  | node k cs =>
    rw [Conforms] at h
    obtain ⟨h1, -, h2, -⟩ := h
    cases k <;> cases h1
    · obtain ⟨y, _, rfl, hy, h'⟩ := conformsAll_cons h2
      obtain rfl := conformsAll_nil h'
      obtain ⟨t, s, rfl, h1, h2⟩ := conforms_sym hy
      rw [Node.flat_plain rfl]
      simp only [List.mem_singleton] at h1
      subst h1
      simp only [List.flatMap_cons, List.flatMap_nil, Node.flat_tok, List.append_nil, List.mem_singleton, forall_eq, h2]
      cases b <;> decide
    · obtain ⟨y, _, rfl, hy, h'⟩ := conformsAll_cons h2
      obtain rfl := conformsAll_nil h'
      rw [Node.flat_plain rfl]
      simpa using quiet_name hy

theorem quiet_opt {b : Bool} {p : Part} (hp : ∀ x, Conforms c p x → ∀ t ∈ x.flat, opensType b t.token.type = false) {x : Node}
    (h : Conforms c (.opt p) x) : ∀ t ∈ x.flat, opensType b t.token.type = false := by
  cases x with
  | tok t => simp [Conforms] at h
  | node k cs =>
    cases k <;> simp only [Conforms] at h
    · subst h; simp [Node.flat_plain (k := .absent) rfl]
    · obtain ⟨y, _, rfl, hy, h'⟩ := conformsAll_cons h
      obtain rfl := conformsAll_nil h'
      rw [Node.flat_plain rfl]
      simpa using hp y hy

theorem Before.quiet_attribute (hc : Before c) {x : Node} (h : Conforms c (.cat .attribute) x) :
    ∀ t ∈ x.flat, opensType (c.has .lua53) t.token.type = false := by
  cases x with
  | tok t => simp [Conforms] at h
  | node k cs =>
    rw [Conforms] at h
    have hf := hc.far h.2.1
    obtain ⟨h1, -, h2, -⟩ := h
    cases k <;> cases h1
    have hb : c.has .lua53 = true := by cases hx : c.has .lua53 <;> rw [hx] at hf <;> first | rfl | cases hf
    obtain ⟨y, _, rfl, hy, h'⟩ := conformsAll_cons h2
    obtain ⟨z, _, rfl, hz, h'⟩ := conformsAll_cons h'
    obtain rfl := conformsAll_nil h'
    obtain ⟨o, e, rfl, ho, he⟩ := conforms_span hy
    rw [flat_wrap rfl, hb]
    simp only [List.mem_cons, List.mem_append, List.not_mem_nil, or_false]
    rintro t (rfl | ht | rfl)
    · rw [ho]; decide
    · exact quiet_name hz t ht
    · rw [he]; decide

theorem Info.ok_many {b : Bool} {i : Info} (hi : (i.s && i.e) = false) : ∀ {cs : List Node}, (∀ x ∈ cs, i.Ok b (typesOf x.flat)) →
    (Info.mk i.s i.e (i.n && !cs.isEmpty)).Ok b (typesOf (cs.flatMap Node.flat))
  | [], _ => by simpa using Info.ok_nil (b := b) i.s i.e
  | x :: cs, h => by
    rw [List.flatMap_cons, typesOf, List.map_append]
    have h2 := ok_many hi (cs := cs) fun y hy => h y (by simp [hy])
    have h1 := h x (by simp)
    obtain ⟨s, e, n⟩ := i
    refine (h1.append h2 (k := ⟨s || !n && s, e || !(n && !cs.isEmpty) && e, n || n && !cs.isEmpty⟩) ?_).le ?_
    · simp only [Info.and]
      rw [if_neg (by simpa [Bool.and_comm] using hi)]
    · cases s <;> cases e <;> cases n <;> cases cs.isEmpty <;> simp_all [Info.le]

theorem Info.ok_pairs {b : Bool} {p : Part} {seps : List Symbol} {i : Info} (hi : i.s = false ∧ i.e = false ∧ i.n = true)
    (hs : seps.all (fun y => !startsWith goesWith y.text && !opens b y) = true) :
    ∀ {cs : List Node}, ConformsPairs c p seps cs → (∀ x ∈ cs, ∀ y ∈ x.children, Conforms c p y → i.Ok b (typesOf y.flat)) →
    ∀ x ∈ cs, i.Ok b (typesOf x.flat)
  | [], _, _ => nofun
  | x :: cs, h, ih => by
    have hx : i.Ok b (typesOf x.flat) ∧ ConformsPairs c p seps cs := by
      have ih1 := ih x (by simp)
      clear ih
      unfold ConformsPairs at h
      split at h
      · rename_i e; cases e
      · rename_i e; cases e
        obtain ⟨y, _, rfl, hy, h'⟩ := conformsAll_cons h.1
        obtain rfl := conformsAll_nil h'
        refine ⟨?_, h.2⟩
        rw [Node.flat_plain rfl]
        simpa using ih1 y (by simp [Node.children]) hy
      · rename_i e; cases e
        obtain ⟨y, _, rfl, hy, h'⟩ := conformsAll_cons h.1
        obtain ⟨z, _, rfl, hz, h'⟩ := conformsAll_cons h'
        obtain rfl := conformsAll_nil h'
        obtain ⟨t, s, rfl, h1, h2⟩ := conforms_sym hz
        refine ⟨?_, h.2⟩
        rw [Node.flat_plain rfl]
        have h3 := ih1 y (by simp [Node.children]) hy
        have h4 : (Info.mk false false true).Ok b [t.token.type] := by
          have := hs
          rw [List.all_eq_true] at this
          have := this s h1
          simp only [Bool.and_eq_true, Bool.not_eq_true'] at this
          exact (Info.ok_symbol b h2).le (by simp [Info.le, Term.info, this])
        obtain ⟨s', e', n'⟩ := i
        obtain ⟨rfl, rfl, rfl⟩ := hi
        have := h3.append h4 (k := ⟨false, false, true⟩) rfl
        simpa [typesOf] using this
      · exact h.elim
    intro y hy
    rcases List.mem_cons.1 hy with rfl | hy
    · exact hx.1
    · exact ok_pairs hi hs hx.2 (fun z hz => ih z (by simp [hz])) y hy

theorem conforms_list {p : Part} {seps : List Symbol} {style : Style} {n : Node} (h : Conforms c (.list p seps style) n) :
    ∃ ps, n = .node .punct ps ∧ ConformsPairs c p seps ps ∧ Separated style ps := by
  cases n with
  | tok t => simp [Conforms] at h
  | node k cs =>
    cases k <;> simp only [Conforms] at h
    exact ⟨cs, rfl, h⟩

theorem conforms_many {p : Part} {n : Node} (h : Conforms c (.many p) n) : ∃ ps, n = .node .vec ps ∧ ConformsEach c p ps := by
  cases n with
  | tok t => simp [Conforms] at h
  | node k cs =>
    cases k <;> simp only [Conforms] at h
    exact ⟨cs, rfl, h⟩

theorem Before.ok (hc : Before c) (n : Node) : ∀ p : Part, p.near (c.has .lua53) = true → Conforms c p n →
    (p.info (c.has .lua53)).Ok (c.has .lua53) (typesOf n.flat) := by
  induction n using Node.induct3 with
  | ht t =>
    intro p hn hp
    cases p <;> simp only [Conforms] at hp
    exact Term.info_ok _ hp
  | hn k cs ih ih2 _ =>
    intro p hn hp
    unfold Conforms at hp
    split at hp
    · cases ‹Node.node k cs = .tok _›
    · cases hn
    · cases ‹Node.node k cs = _›
      rename_i a
      have ha : farCats.contains a = false := by simpa [Part.near] using hn
      have hd : deadCats.contains a = false := by
        cases hx : deadCats.contains a with
        | false => rfl
        | true => exact (hc.dead hx (n := .node k cs) (by rw [Conforms]; exact hp)).elim
      have hf := hc.far hp.2.1
      obtain ⟨h1, -, h2, -⟩ := hp
      show (Cat.info a).Ok _ _
      generalize hb : c.has .lua53 = b at *
      cases hl : k.layout with
      | none =>
        have hg := plain_good b c.feat k a h1 hl ha hf
        rw [Node.flat_plain hl]
        refine Info.of_good hg (Info.oks_all h2 ih ?_)
        simp only [goodParts, Bool.and_eq_true, List.all_eq_true] at hg
        exact hg.1
      | some l =>
        cases hw : k.wraps with
        | true =>
          obtain ⟨o, e, p, hprod, hg⟩ := wraps_good b c.feat k a h1 hw ha hd hf
          rw [hprod] at h2
          obtain ⟨x, _, rfl, hx, h2⟩ := conformsAll_cons h2
          obtain ⟨y, _, rfl, hy, h2⟩ := conformsAll_cons h2
          obtain rfl := conformsAll_nil h2
          obtain ⟨t, u, rfl, ht, hu⟩ := conforms_span hx
          rw [flat_wrap hw]
          refine Info.of_good hg ?_
          have hp : p.near b = true := by
            simp only [goodParts, Bool.and_eq_true, List.all_eq_true] at hg
            exact hg.1 p (by simp)
          have := Info.Oks.cons (Info.ok_symbol b ht) (.cons (ih y (by simp) p hp hy) (.cons (Info.ok_symbol b hu) .nil))
          simpa [typesOf, Part.info] using this
        | false =>
          have near : ∀ {x : Node} {p : Part}, x ∈ cs → p.near b = true → Conforms c p x → (p.info b).Ok b (typesOf x.flat) := fun hx hn hp => ih _ hx _ hn hp
          have noSpec : ∀ {x : Node}, Conforms c (.opt (.cat .typeSpec)) x → ∀ t ∈ x.flat, opensType b t.token.type = false :=
            quiet_opt fun x hx => (hc.dead rfl hx).elim
          clear ih ih2 hd
          cases k with
          | fieldExprKey =>
            cases h1
            obtain ⟨x, _, rfl, hx, h2⟩ := conformsAll_cons h2
            obtain ⟨y, _, rfl, hy, h2⟩ := conformsAll_cons h2
            obtain ⟨z, _, rfl, hz, h2⟩ := conformsAll_cons h2
            obtain ⟨w, _, rfl, hw, h2⟩ := conformsAll_cons h2
            obtain rfl := conformsAll_nil h2
            obtain ⟨t, u, rfl, ht, hu⟩ := conforms_span hx
            rw [flat_fieldExprKey]
            have := Info.Oks.cons (Info.ok_symbol b ht) (.cons (near (by simp) (by cases b <;> rfl) hy) (.cons (Info.ok_symbol b hu) (.cons (near (by simp) (by cases b <;> rfl) hz) (.cons (near (by simp) (by cases b <;> rfl) hw) .nil))))
            have := (Info.ok_nil (b := b) false false).seq this (k := ⟨false, false, true⟩) (by cases b <;> rfl)
            refine Info.Ok.le (i := ⟨false, false, true⟩) ?_ rfl
            simpa [typesOf] using this
          | numericFor =>
            cases h1
            obtain ⟨x1, _, rfl, h1, h2⟩ := conformsAll_cons h2
            obtain ⟨x2, _, rfl, h2', h2⟩ := conformsAll_cons h2
            obtain ⟨x3, _, rfl, h3, h2⟩ := conformsAll_cons h2
            obtain ⟨x4, _, rfl, h4, h2⟩ := conformsAll_cons h2
            obtain ⟨x5, _, rfl, h5, h2⟩ := conformsAll_cons h2
            obtain ⟨x6, _, rfl, h6, h2⟩ := conformsAll_cons h2
            obtain ⟨x7, _, rfl, h7, h2⟩ := conformsAll_cons h2
            obtain ⟨x8, _, rfl, h8, h2⟩ := conformsAll_cons h2
            obtain ⟨x9, _, rfl, h9, h2⟩ := conformsAll_cons h2
            obtain ⟨x10, _, rfl, h10, h2⟩ := conformsAll_cons h2
            obtain ⟨x11, _, rfl, h11, h2⟩ := conformsAll_cons h2
            obtain ⟨x12, _, rfl, h12, h2⟩ := conformsAll_cons h2
            obtain rfl := conformsAll_nil h2
            rw [flat_numericFor]
            have := Info.Oks.cons (near (by simp) (by cases b <;> rfl) h1) (.cons (near (by simp) (by cases b <;> rfl) h2') (.cons (near (by simp) (by cases b <;> rfl) h12) (.cons (near (by simp) (by cases b <;> rfl) h3)
              (.cons (near (by simp) (by cases b <;> rfl) h4) (.cons (near (by simp) (by cases b <;> rfl) h5) (.cons (near (by simp) (by cases b <;> rfl) h6) (.cons (near (by simp) (by cases b <;> rfl) h7)
              (.cons (near (by simp) (by cases b <;> rfl) h8) (.cons (near (by simp) (by cases b <;> rfl) h9) (.cons (near (by simp) (by cases b <;> rfl) h10) (.cons (near (by simp) (by cases b <;> rfl) h11) .nil)))))))))))
            have := (Info.ok_nil (b := b) false false).seq this (k := ⟨false, false, true⟩) (by cases b <;> rfl)
            refine Info.Ok.le (i := ⟨false, false, true⟩) ?_ rfl
            simpa [typesOf] using this
          | genericFor =>
            cases h1
            obtain ⟨x1, _, rfl, h1, h2⟩ := conformsAll_cons h2
            obtain ⟨x2, _, rfl, h2', h2⟩ := conformsAll_cons h2
            obtain ⟨x3, _, rfl, h3, h2⟩ := conformsAll_cons h2
            obtain ⟨x4, _, rfl, h4, h2⟩ := conformsAll_cons h2
            obtain ⟨x5, _, rfl, h5, h2⟩ := conformsAll_cons h2
            obtain ⟨x6, _, rfl, h6, h2⟩ := conformsAll_cons h2
            obtain ⟨x7, _, rfl, h7, h2⟩ := conformsAll_cons h2
            obtain ⟨x8, _, rfl, h8, h2⟩ := conformsAll_cons h2
            obtain rfl := conformsAll_nil h2
            obtain ⟨ps, rfl, h2'⟩ := conforms_list h2'
            obtain ⟨ts, rfl, h8⟩ := conforms_many h8
            rw [flat_genericFor]
            have hq := Info.ok_quiet (l := typesOf (flatNames ps [] ts)) (b := b) (by
              simp only [typesOf, List.forall_mem_map]
              exact names_quiet (quiet_names (by cases b <;> rfl) (fun x => quiet_name) h2'.1) nofun fun x hx => noSpec (conformsEach_child h8 x hx))
            have := Info.Oks.cons (near (by simp) (by cases b <;> rfl) h1) (.cons hq (.cons (near (by simp) (by cases b <;> rfl) h3)
              (.cons (near (by simp) (by cases b <;> rfl) h4) (.cons (near (by simp) (by cases b <;> rfl) h5) (.cons (near (by simp) (by cases b <;> rfl) h6) (.cons (near (by simp) (by cases b <;> rfl) h7) .nil))))))
            have := (Info.ok_nil (b := b) false false).seq this (k := ⟨false, false, true⟩) (by cases b <;> rfl)
            refine Info.Ok.le (i := ⟨false, false, true⟩) ?_ rfl
            simpa [typesOf] using this
          | funcBody =>
            cases h1
            obtain ⟨x1, _, rfl, h1, h2⟩ := conformsAll_cons h2
            obtain ⟨x2, _, rfl, h2', h2⟩ := conformsAll_cons h2
            obtain ⟨x3, _, rfl, h3, h2⟩ := conformsAll_cons h2
            obtain ⟨x4, _, rfl, h4, h2⟩ := conformsAll_cons h2
            obtain ⟨x5, _, rfl, h5, h2⟩ := conformsAll_cons h2
            obtain ⟨x6, _, rfl, h6, h2⟩ := conformsAll_cons h2
            obtain ⟨x7, _, rfl, h7, h2⟩ := conformsAll_cons h2
            obtain rfl := conformsAll_nil h2
            obtain ⟨t, u, rfl, ht, hu⟩ := conforms_span h2'
            obtain ⟨ps, rfl, h3⟩ := conforms_list h3
            obtain ⟨ts, rfl, h4⟩ := conforms_many h4
            rw [flat_funcBody]
            have hq := Info.ok_quiet (l := typesOf (flatNames ps [] ts)) (b := b) (by
              simp only [typesOf, List.forall_mem_map]
              exact names_quiet (quiet_names (by cases b <;> rfl) (fun x => quiet_param) h3.1) nofun fun x hx => noSpec (conformsEach_child h4 x hx))
            have := Info.Oks.cons (near (by simp) (by cases b <;> rfl) h1) (.cons (Info.ok_symbol b ht) (.cons hq (.cons (Info.ok_symbol b hu)
              (.cons (near (by simp) (by cases b <;> rfl) h5) (.cons (near (by simp) (by cases b <;> rfl) h6) (.cons (near (by simp) (by cases b <;> rfl) h7) .nil))))))
            have := (Info.ok_nil (b := b) false false).seq this (k := ⟨false, false, true⟩) (by cases b <;> rfl)
            refine Info.Ok.le (i := ⟨false, false, true⟩) ?_ rfl
            simpa [typesOf] using this
          | localAssignment =>
            cases h1
            obtain ⟨x1, _, rfl, h1, h2⟩ := conformsAll_cons h2
            obtain ⟨x2, _, rfl, h2', h2⟩ := conformsAll_cons h2
            obtain ⟨x3, _, rfl, h3, h2⟩ := conformsAll_cons h2
            obtain ⟨x4, _, rfl, h4, h2⟩ := conformsAll_cons h2
            obtain ⟨x5, _, rfl, h5, h2⟩ := conformsAll_cons h2
            obtain ⟨x6, _, rfl, h6, h2⟩ := conformsAll_cons h2
            obtain rfl := conformsAll_nil h2
            obtain ⟨ts, rfl, h2'⟩ := conforms_many h2'
            obtain ⟨ps, rfl, h3⟩ := conforms_list h3
            obtain ⟨as, rfl, h4⟩ := conforms_many h4
            rw [flat_localAssignment]
            have hq := Info.ok_quiet (l := typesOf (flatNames ps as ts)) (b := b) (by
              simp only [typesOf, List.forall_mem_map]
              exact names_quiet (quiet_names (by cases b <;> rfl) (fun x => quiet_name) h3.1)
                (fun x hx => quiet_opt (fun x hx => hb ▸ hc.quiet_attribute hx) (conformsEach_child h4 x hx))
                fun x hx => noSpec (conformsEach_child h2' x hx))
            have h5 := near (by simp) (by cases b <;> rfl) h5
            have h5 : (Info.mk true false false).Ok b (typesOf x5.flat) := h5.le (by cases c.feat.cfxlua <;> cases b <;> rfl)
            have := Info.Oks.cons (near (by simp) (by cases b <;> rfl) h1) (.cons hq (.cons h5 (.cons (near (by simp) (by cases b <;> rfl) h6) .nil)))
            have := (Info.ok_nil (b := b) false false).seq this (k := ⟨false, false, true⟩) (by cases b <;> rfl)
            refine Info.Ok.le (i := ⟨false, false, true⟩) ?_ rfl
            simpa [typesOf] using this
          | _ => first | (cases hl; done) | (cases hw; done) | (cases h1; cases ha; done) | (cases hf; done)
    · cases hn
    · cases ‹Node.node k cs = _›
      subst hp
      rw [Node.flat_plain rfl]
      exact Info.ok_nil _ _
    · rename_i heq; cases heq
      obtain ⟨y, _, rfl, hy, h'⟩ := conformsAll_cons hp
      obtain rfl := conformsAll_nil h'
      rw [Node.flat_plain rfl]
      have := ih y (by simp) _ (by simpa [Part.near] using hn) hy
      refine Info.Ok.le (i := Part.info _ _) (by simpa using this) ?_
      simp [Info.le, Part.info]
    · rename_i heq; cases heq
      rename_i q
      simp only [Part.near, Bool.and_eq_true, Bool.not_eq_true'] at hn
      rw [Node.flat_plain rfl]
      refine (Info.ok_many hn.2 fun x hx => ih x hx q hn.1 (conformsEach_child hp x hx)).le ?_
      simp [Info.le, Part.info]
    · rename_i heq; cases heq
      rename_i q
      simp only [Part.near, Bool.and_eq_true, Bool.not_eq_true'] at hn
      rw [Node.flat_plain rfl]
      refine (Info.ok_many hn.2 fun x hx => ih x hx q hn.1 (conformsEach_child hp.1 x hx)).le ?_
      simp [Info.le, Part.info, hp.2]
    · rename_i heq; cases heq
      rename_i q seps style
      simp only [Part.near, Bool.and_eq_true, Bool.not_eq_true'] at hn
      obtain ⟨⟨⟨⟨h1, h2⟩, h3⟩, h4⟩, h5⟩ := hn
      rw [Node.flat_plain rfl]
      refine (Info.ok_many (i := q.info (c.has .lua53)) (by simp [h2]) fun x hx => Info.ok_pairs ⟨h2, h3, h4⟩ h5 hp.1 (fun x hx y hy h => ih2 x hx y hy q h1 h) x hx).le ?_
      have := hp.2.2.1
      cases style <;> simp_all [Info.le, Part.info]
    · rename_i heq; cases heq
      rename_i q r
      simp only [Part.near, Bool.and_eq_true, Option.isSome_iff_exists] at hn
      obtain ⟨⟨h1, h2⟩, i, hi⟩ := hn
      obtain ⟨x, _, rfl, hx, hp⟩ := conformsAll_cons hp
      obtain ⟨y, _, rfl, hy, hp⟩ := conformsAll_cons hp
      obtain rfl := conformsAll_nil hp
      rw [Node.flat_plain rfl]
      have := (ih x (by simp) q h1 hx).append (ih y (by simp) r h2 hy) hi
      simpa [Part.info, hi] using this
    · exact hp.elim

end FM.Spec
