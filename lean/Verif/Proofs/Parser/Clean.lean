import Verif.Proofs.Parser.Tactics
import Verif.Proofs.Parser.Kinds
import Verif.Proofs.Parser.Reading

/-! Helper lemmas: a program logic for runs of parser functions that record nothing. -/

namespace FM.Parser.Clean
open FM.Spec FM.Parser

variable {c : Cfg} {α β : Type}

/-- If `p` runs on `l` without recording an error or giving up, then it ends in a state where `Q` holds. -/
def cwp (p : M α) (l : List TokRef) (Q : α → List TokRef → Prop) : Prop :=
  ∀ r, p (l.map .ok) = .ok r → r.errs = [] → r.silent = 0 → ∃ l', r.toks = l'.map .ok ∧ Q r.val l'

theorem cwp_pure {a : α} {l : List TokRef} {Q : α → List TokRef → Prop} (h : Q a l) : cwp (pure a) l Q := by
  intro r hr _ _
  cases hr
  exact ⟨l, rfl, h⟩

theorem cwp_bind {p : M α} {f : α → M β} {l : List TokRef} {Q : β → List TokRef → Prop}
    (h : cwp p l fun a l' => cwp (f a) l' Q) : cwp (p >>= f) l Q := by
  intro r hr he hs
  have hb : (p >>= f) (l.map .ok) = M.bind p f (l.map .ok) := rfl
  rw [hb, M.bind] at hr
  split at hr
  · rename_i r1 h1
    unfold Run.andThen at hr
    split at hr
    · rename_i r2 h2
      cases hr
      simp only [List.append_eq_nil_iff, Nat.add_eq_zero_iff] at he hs
      obtain ⟨l', hl', hq⟩ := h r1 h1 he.1 hs.1
      rw [hl'] at h2
      exact hq r2 h2 he.2 hs.2
    · cases hr
    · cases hr
  · cases hr
  · cases hr

theorem cwp_mono {p : M α} {l : List TokRef} {Q Q' : α → List TokRef → Prop} (h : cwp p l Q)
    (hq : ∀ a l', Q a l' → Q' a l') : cwp p l Q' := by
  intro r hr he hs
  obtain ⟨l', h1, h2⟩ := h r hr he hs
  exact ⟨l', h1, hq _ _ h2⟩

theorem cwp_and {p : M α} {l : List TokRef} {Q Q' : α → List TokRef → Prop} (h : cwp p l Q) (h' : cwp p l Q') :
    cwp p l fun a l' => Q a l' ∧ Q' a l' := by
  intro r hr he hs
  obtain ⟨l1, h1, h2⟩ := h r hr he hs
  obtain ⟨l2, h3, h4⟩ := h' r hr he hs
  have hl : l1 = l2 := by
    have h5 := h1.symm.trans h3
    have inj : ∀ a b : List TokRef, a.map LexRes.ok = b.map LexRes.ok → a = b := by
      intro a
      induction a with
      | nil => intro b hb; cases b with
        | nil => rfl
        | cons x b => cases hb
      | cons y a ih => intro b hb; cases b with
        | nil => cases hb
        | cons x b =>
          simp only [List.map_cons, List.cons.injEq, LexRes.ok.injEq] at hb
          rw [hb.1, ih _ hb.2]
    exact inj _ _ h5
  subst hl
  exact ⟨l1, h1, h2, h4⟩

theorem cwp_ite {b : Prop} [Decidable b] {p q : M α} {l : List TokRef} {Q : α → List TokRef → Prop}
    (h : b → cwp p l Q) (h' : ¬ b → cwp q l Q) : cwp (if b then p else q) l Q := by
  split
  · exact h ‹_›
  · exact h' ‹_›

theorem cwp_ite_true {p q : M α} {l : List TokRef} {Q : α → List TokRef → Prop} (h : cwp p l Q) :
    cwp (if true = true then p else q) l Q := h
theorem cwp_ite_false {p q : M α} {l : List TokRef} {Q : α → List TokRef → Prop} (h : cwp q l Q) :
    cwp (if false = true then p else q) l Q := h
theorem cwp_ite_and_false {a : Bool} {p q : M α} {l : List TokRef} {Q : α → List TokRef → Prop} (h : cwp q l Q) :
    cwp (if (a && false) = true then p else q) l Q := by cases a <;> exact h
theorem cwp_ite_and_true {a : Bool} {p q : M α} {l : List TokRef} {Q : α → List TokRef → Prop}
    (h : cwp (if a = true then p else q) l Q) : cwp (if (a && true) = true then p else q) l Q := by cases a <;> exact h

theorem cwp_ite_some {x : β} {p q : M α} {l : List TokRef} {Q : α → List TokRef → Prop} (h : cwp p l Q) :
    cwp (if (some x).isSome = true then p else q) l Q := h
theorem cwp_ite_none {p q : M α} {l : List TokRef} {Q : α → List TokRef → Prop} (h : cwp q l Q) :
    cwp (if (none : Option β).isSome = true then p else q) l Q := h

theorem cwp_panic {l : List TokRef} {Q : α → List TokRef → Prop} : cwp (panic : M α) l Q := by intro r hr; cases hr
theorem cwp_diverge {l : List TokRef} {Q : α → List TokRef → Prop} : cwp (diverge : M α) l Q := by intro r hr; cases hr
theorem cwp_giveUp {l : List TokRef} {Q : Unit → List TokRef → Prop} : cwp giveUp l Q := by
  intro r hr _ hs; cases hr; cases hs
theorem cwp_tokenError {t : TokRef} {m : String} {l : List TokRef} {Q : Unit → List TokRef → Prop} :
    cwp (tokenError t m) l Q := by intro r hr he _; cases hr; cases he
theorem cwp_tokenErrorRanged {t a b : TokRef} {m : String} {l : List TokRef} {Q : Unit → List TokRef → Prop} :
    cwp (tokenErrorRanged t m a b) l Q := by intro r hr he _; cases hr; cases he
theorem cwp_fuel {l : List TokRef} {Q : Nat → List TokRef → Prop} (h : ∀ n, Q n l) : cwp fuel l Q := by
  intro r hr _ _; cases hr; exact ⟨l, rfl, h _⟩

/-! ## Looking at and taking tokens -/

/-- The first token. -/
def Hd (l : List TokRef) (t : TokRef) : Prop := l.head? = some t

theorem Hd.cons {t : TokRef} {l : List TokRef} : Hd (t :: l) t := rfl
theorem Hd.eq {t u : TokRef} {l : List TokRef} (h : Hd (t :: l) u) : u = t := (Option.some.inj h).symm
theorem Hd.inj {t u : TokRef} {l : List TokRef} (h : Hd l t) (h' : Hd l u) : t = u := Option.some.inj (h.symm.trans h')
theorem Hd.exists {t : TokRef} {l : List TokRef} (h : Hd l t) : ∃ rest, l = t :: rest := by
  cases l with
  | nil => cases h
  | cons u l => cases h; exact ⟨l, rfl⟩

theorem cwp_current_hd {t : TokRef} {l : List TokRef} {Q : Option TokRef → List TokRef → Prop} (hd : Hd l t) (h : Q (some t) l) :
    cwp current l Q := by obtain ⟨rest, rfl⟩ := hd.exists; intro r hr _ _; cases hr; exact ⟨_, rfl, h⟩

theorem cwp_current {l : List TokRef} {Q : Option TokRef → List TokRef → Prop} (h : ∀ t, Hd l t → Q (some t) l) :
    cwp current l Q := by
  cases l with
  | nil => intro r hr; cases hr
  | cons t l => exact cwp_current_hd .cons (h t .cons)

theorem cwp_take_hd {t : TokRef} {l : List TokRef} {Q : TokRef → List TokRef → Prop} (hd : Hd l t)
    (h : ∀ rest, l = t :: rest → Q t rest) : cwp take l Q := by
  obtain ⟨rest, rfl⟩ := hd.exists
  intro r hr _ _; cases hr; exact ⟨_, rfl, h _ rfl⟩

theorem cwp_take_peek {t u : TokRef} {l : List TokRef} {Q : TokRef → List TokRef → Prop} (hd : Hd l t) (hp : Hd l.tail u)
    (h : ∀ rest, l = t :: rest → Hd rest u → Q t rest) : cwp take l Q := by
  obtain ⟨rest, rfl⟩ := hd.exists
  exact cwp_take_hd .cons fun rest' hr => by cases hr; exact h _ rfl hp

theorem cwp_take {l : List TokRef} {Q : TokRef → List TokRef → Prop} (h : ∀ t rest, l = t :: rest → Q t rest) : cwp take l Q := by
  cases l with
  | nil => intro r hr; cases hr
  | cons t l => exact cwp_take_hd .cons (h t)

theorem cwp_consume_hd {t : TokRef} {l : List TokRef} {Q : Res TokRef → List TokRef → Prop} (hd : Hd l t)
    (h : ∀ rest, l = t :: rest → Q (.value t) rest) : cwp consume l Q := by
  obtain ⟨rest, rfl⟩ := hd.exists
  intro r hr _ _; cases hr; exact ⟨_, rfl, h _ rfl⟩

theorem cwp_takeIf_hd {p : TokRef → Bool} {t : TokRef} {l : List TokRef} {Q : Took → List TokRef → Prop} (hd : Hd l t)
    (h1 : ∀ rest, l = t :: rest → p t = true → Q (.took t) rest) (h2 : p t = false → Q (.other t) l) : cwp (takeIf p) l Q := by
  refine cwp_bind (cwp_current_hd hd ?_)
  refine cwp_ite (fun h => cwp_bind (cwp_take_hd hd fun rest hl => cwp_pure (h1 rest hl h))) fun h => cwp_pure (h2 (Bool.eq_false_iff.2 h))

theorem cwp_takeIf {p : TokRef → Bool} {l : List TokRef} {Q : Took → List TokRef → Prop}
    (h1 : ∀ t rest, l = t :: rest → p t = true → Q (.took t) rest)
    (h2 : ∀ t, Hd l t → p t = false → Q (.other t) l) : cwp (takeIf p) l Q := by
  cases l with
  | nil => intro r hr; cases hr
  | cons t l => exact cwp_takeIf_hd .cons (h1 t) (h2 t .cons)

theorem cwp_consumeIf_hd {s : Symbol} {t : TokRef} {l : List TokRef} {Q : Option TokRef → List TokRef → Prop} (hd : Hd l t)
    (h1 : ∀ rest, l = t :: rest → is s t = true → Q (some t) rest) (h2 : is s t = false → Q none l) : cwp (consumeIf s) l Q :=
  cwp_bind (cwp_takeIf_hd hd (fun rest hl h => cwp_pure (h1 rest hl h)) fun h => cwp_pure (h2 h))

theorem cwp_consumeIf {s : Symbol} {l : List TokRef} {Q : Option TokRef → List TokRef → Prop}
    (h1 : ∀ t rest, l = t :: rest → is s t = true → Q (some t) rest)
    (h2 : ∀ t, Hd l t → is s t = false → Q none l) : cwp (consumeIf s) l Q :=
  cwp_bind (cwp_takeIf (fun t rest hl h => cwp_pure (h1 t rest hl h)) fun t hd h => cwp_pure (h2 t hd h))

theorem cwp_consumeIfAny_hd {ss : List Symbol} {t : TokRef} {l : List TokRef} {Q : Option TokRef → List TokRef → Prop} (hd : Hd l t)
    (h1 : ∀ rest, l = t :: rest → ss.any t.isSymbol = true → Q (some t) rest)
    (h2 : ss.any t.isSymbol = false → Q none l) : cwp (consumeIfAny ss) l Q :=
  cwp_bind (cwp_takeIf_hd hd (fun rest hl h => cwp_pure (h1 rest hl h)) fun h => cwp_pure (h2 h))

theorem cwp_consumeIfAny {ss : List Symbol} {l : List TokRef} {Q : Option TokRef → List TokRef → Prop}
    (h1 : ∀ t rest, l = t :: rest → ss.any t.isSymbol = true → Q (some t) rest)
    (h2 : ∀ t, Hd l t → ss.any t.isSymbol = false → Q none l) : cwp (consumeIfAny ss) l Q :=
  cwp_bind (cwp_takeIf (fun t rest hl h => cwp_pure (h1 t rest hl h)) fun t hl h => cwp_pure (h2 t hl h))

theorem cwp_require_hd {s : Symbol} {m : String} {t : TokRef} {l : List TokRef} {Q : Option TokRef → List TokRef → Prop} (hd : Hd l t)
    (h : ∀ rest, l = t :: rest → is s t = true → Q (some t) rest) : cwp (require s m) l Q :=
  cwp_bind (cwp_takeIf_hd hd (fun rest hl ht => cwp_pure (h rest hl ht)) fun _ => cwp_bind cwp_tokenError)

theorem cwp_require {s : Symbol} {m : String} {l : List TokRef} {Q : Option TokRef → List TokRef → Prop}
    (h : ∀ t rest, l = t :: rest → is s t = true → Q (some t) rest) : cwp (require s m) l Q :=
  cwp_bind (cwp_takeIf (fun t rest hl ht => cwp_pure (h t rest hl ht)) fun _ _ _ => cwp_bind cwp_tokenError)

theorem cwp_requireWithToken {s : Symbol} {m : String} {r : TokRef} {l : List TokRef} {Q : Option TokRef → List TokRef → Prop}
    (h : ∀ t rest, l = t :: rest → is s t = true → Q (some t) rest) : cwp (requireWithToken s m r) l Q :=
  cwp_bind (cwp_takeIf (fun t rest hl ht => cwp_pure (h t rest hl ht)) fun _ _ _ => cwp_bind cwp_tokenError)

theorem cwp_requireOr {s : Symbol} {m : String} {x : Text} {l : List TokRef} {Q : TokRef → List TokRef → Prop}
    (h : ∀ t rest, l = t :: rest → is s t = true → Q t rest) : cwp (requireOr c s m x) l Q :=
  cwp_bind (cwp_require fun t rest hl ht => cwp_pure (h t rest hl ht))

theorem cwp_currentIs_hd {p : TokRef → Bool} {t : TokRef} {l : List TokRef} {Q : Bool → List TokRef → Prop} (hd : Hd l t)
    (h1 : p t = true → Q true l) (h2 : p t = false → Q false l) : cwp (currentIs p) l Q := by
  refine cwp_bind (cwp_current_hd hd (cwp_pure ?_))
  cases h : p t
  · exact h2 h
  · exact h1 h

theorem cwp_currentIs {p : TokRef → Bool} {l : List TokRef} {Q : Bool → List TokRef → Prop}
    (h1 : ∀ t, Hd l t → p t = true → Q true l)
    (h2 : ∀ t, Hd l t → p t = false → Q false l) : cwp (currentIs p) l Q := by
  cases l with
  | nil => intro r hr; cases hr
  | cons t l => exact cwp_currentIs_hd .cons (h1 t .cons) (h2 t .cons)

theorem cwp_peekIs {p : TokRef → Bool} {l : List TokRef} {Q : Bool → List TokRef → Prop}
    (h1 : ∀ u, Hd l.tail u → p u = true → Q true l)
    (h2 : ∀ u, Hd l.tail u → p u = false → Q false l) : cwp (peekIs p) l Q := by
  cases l with
  | nil => intro r hr; cases hr
  | cons t l =>
    cases l with
    | nil => intro r hr; cases hr
    | cons u l =>
      intro r hr _ _
      have : (peekIs p) ((t :: u :: l).map .ok) = .ok ⟨p u, (t :: u :: l).map .ok, [], 0⟩ := rfl
      rw [this] at hr
      cases hr
      refine ⟨_, rfl, ?_⟩
      cases h : p u
      · exact h2 u rfl h
      · exact h1 u rfl h

theorem cwp_currentUnwrap {l : List TokRef} {Q : TokRef → List TokRef → Prop} (h : ∀ t, Hd l t → Q t l) :
    cwp currentUnwrap l Q := cwp_bind (cwp_current fun t hl => cwp_pure (h t hl))

theorem cwp_lastToken {n : Node} {l : List TokRef} {Q : TokRef → List TokRef → Prop} (h : ∀ t, Q t l) : cwp (lastToken n) l Q := by
  unfold lastToken
  split
  · exact cwp_pure (h _)
  · exact cwp_panic
theorem cwp_firstToken {n : Node} {l : List TokRef} {Q : TokRef → List TokRef → Prop} (h : ∀ t, Q t l) : cwp (firstToken n) l Q := by
  unfold firstToken
  split
  · exact cwp_pure (h _)
  · exact cwp_panic

theorem cwp_requireWithRange {s : Symbol} {m : String} {range : M (TokRef × TokRef)} {l : List TokRef}
    {Q : Option TokRef → List TokRef → Prop}
    (h : ∀ t rest, l = t :: rest → is s t = true → Q (some t) rest) : cwp (requireWithRange s m range) l Q := by
  refine cwp_bind (cwp_takeIf (fun t rest hl ht => cwp_pure (h t rest hl ht)) fun t _ _ => ?_)
  intro r hr he hs
  change M.bind range _ (l.map .ok) = _ at hr
  rw [M.bind] at hr
  split at hr
  · rename_i r1 _
    change Outcome.ok (⟨none, r1.toks, r1.errs ++ ([_] ++ []), r1.silent + (0 + 0)⟩ : Run (Option TokRef)) = _ at hr
    cases hr
    simp at he
  · cases hr
  · cases hr

/-! ## Results -/

/-- The tokens of a value, in the order of the source. -/
class Yield (α : Type) where
  yield : α → List TokRef
export Yield (yield)

instance : Yield Node := ⟨Node.flat⟩
instance : Yield TokRef := ⟨fun t => [t]⟩
instance [Yield α] : Yield (Option α) := ⟨fun o => match o with | none => [] | some a => yield a⟩
instance [Yield α] [Yield β] : Yield (α × β) := ⟨fun p => yield p.1 ++ yield p.2⟩
instance [Yield α] : Yield (List α) := ⟨fun l => l.flatMap yield⟩
instance [Yield α] : Yield (Pair α) := ⟨fun p => yield p.value ++ yield p.punctuation⟩
instance [Yield α] : Yield (Punctuated α) := ⟨fun p => yield p.pairs⟩

@[simp] theorem yield_node (n : Node) : yield n = n.flat := rfl
@[simp] theorem yield_tok (t : TokRef) : yield t = [t] := rfl
@[simp] theorem yield_none [Yield α] : yield (none : Option α) = [] := rfl
@[simp] theorem yield_some [Yield α] (a : α) : yield (some a) = yield a := rfl
@[simp] theorem yield_prod [Yield α] [Yield β] (a : α) (b : β) : yield (a, b) = yield a ++ yield b := rfl
@[simp] theorem yield_nil [Yield α] : yield ([] : List α) = [] := rfl
@[simp] theorem yield_cons [Yield α] (a : α) (l : List α) : yield (a :: l) = yield a ++ yield l := rfl
@[simp] theorem yield_append [Yield α] (l l' : List α) : yield (l ++ l') = yield l ++ yield l' := List.flatMap_append
@[simp] theorem yield_end [Yield α] (a : α) : yield (Pair.end a) = yield a := by show yield a ++ [] = yield a; simp
@[simp] theorem yield_punctuated [Yield α] (a : α) (t : TokRef) : yield (Pair.punctuated a t) = yield a ++ [t] := rfl
@[simp] theorem yield_new [Yield α] : yield (Punctuated.new : Punctuated α) = [] := rfl
@[simp] theorem yield_mk [Yield α] (l : List (Pair α)) : yield (⟨l⟩ : Punctuated α) = yield l := rfl
@[simp] theorem yield_push [Yield α] (p : Punctuated α) (x : Pair α) : yield (p.push x) = yield p ++ yield x := by
  show yield (p.pairs ++ [x]) = yield p.pairs ++ yield x
  simp
theorem yield_list [Yield α] (l : List α) : yield l = l.flatMap yield := rfl

/-- The result of a function: the tokens of the value were taken; if nothing was found, nothing was taken. -/
def RQ [Yield α] (P : α → Prop) (l : List TokRef) (r : Res α) (l' : List TokRef) : Prop :=
  match r with
  | .value v => P v ∧ l = yield v ++ l'
  | .moved => False
  | .notFound => l' = l

/-- The result of a function that has to find a value. -/
def OQ [Yield α] (P : α → Prop) (l : List TokRef) (r : Option α) (l' : List TokRef) : Prop :=
  match r with
  | some v => P v ∧ l = yield v ++ l'
  | none => False

/-- The value of a function that always has one. -/
def VQ [Yield α] (P : α → Prop) (l : List TokRef) (v : α) (l' : List TokRef) : Prop := P v ∧ l = yield v ++ l'

/-- The result of a function that returns only if it finds a value. -/
def FQ [Yield α] (P : α → Prop) (l : List TokRef) (r : Res α) (l' : List TokRef) : Prop :=
  match r with
  | .value v => P v ∧ l = yield v ++ l'
  | _ => False

theorem cwp_found [Yield α] {p : M (Res α)} {P : α → Prop} {l : List TokRef} {Q : Res α → List TokRef → Prop}
    (h : cwp p l (FQ P l)) (h1 : ∀ v l', P v → l = yield v ++ l' → Q (.value v) l') : cwp p l Q := by
  refine cwp_mono h fun r l' hr => ?_
  cases r with
  | value v => exact h1 v l' hr.1 hr.2
  | moved => exact hr.elim
  | notFound => exact hr.elim

theorem FQ.res [Yield α] {P : α → Prop} {l l' : List TokRef} {r : Res α} (h : FQ P l r l') : RQ P l r l' := by
  cases r with
  | value v => exact h
  | moved => exact h.elim
  | notFound => exact h.elim

theorem RQ.value [Yield α] {P : α → Prop} {l l' : List TokRef} {v : α} (h : P v) (hl : l = yield v ++ l') : RQ P l (.value v) l' := ⟨h, hl⟩
theorem RQ.notFound [Yield α] {P : α → Prop} {l : List TokRef} : RQ P l .notFound l := rfl
theorem FQ.value [Yield α] {P : α → Prop} {l l' : List TokRef} {v : α} (h : P v) (hl : l = yield v ++ l') : FQ P l (.value v) l' := ⟨h, hl⟩
theorem OQ.some [Yield α] {P : α → Prop} {l l' : List TokRef} {v : α} (h : P v) (hl : l = yield v ++ l') : OQ P l (some v) l' := ⟨h, hl⟩
theorem VQ.mk [Yield α] {P : α → Prop} {l l' : List TokRef} {v : α} (h : P v) (hl : l = yield v ++ l') : VQ P l v l' := ⟨h, hl⟩

theorem cwp_res [Yield α] {p : M (Res α)} {P : α → Prop} {l : List TokRef} {Q : Res α → List TokRef → Prop}
    (h : cwp p l (RQ P l)) (h1 : ∀ v l', P v → l = yield v ++ l' → Q (.value v) l') (h2 : Q .notFound l) : cwp p l Q := by
  refine cwp_mono h fun r l' hr => ?_
  cases r with
  | value v => exact h1 v l' hr.1 hr.2
  | moved => exact hr.elim
  | notFound => obtain rfl : l' = l := hr; exact h2

theorem cwp_opt [Yield α] {p : M (Option α)} {P : α → Prop} {l : List TokRef} {Q : Option α → List TokRef → Prop}
    (h : cwp p l (OQ P l)) (h1 : ∀ v l', P v → l = yield v ++ l' → Q (some v) l') : cwp p l Q := by
  refine cwp_mono h fun r l' hr => ?_
  cases r with
  | some v => exact h1 v l' hr.1 hr.2
  | none => exact hr.elim

theorem cwp_val [Yield α] {p : M α} {P : α → Prop} {l : List TokRef} {Q : α → List TokRef → Prop}
    (h : cwp p l (VQ P l)) (h1 : ∀ v l', P v → l = yield v ++ l' → Q v l') : cwp p l Q :=
  cwp_mono h fun v l' hr => h1 v l' hr.1 hr.2

/-! ## Tokens -/

theorem is_iff {s : Symbol} {t : TokRef} : is s t = true ↔ t.token.type = .symbol s := by
  simp [is, TokRef.isSymbol]

theorem is_false_iff {s : Symbol} {t : TokRef} : is s t = false ↔ t.token.type ≠ .symbol s := by
  rw [← Bool.not_eq_true, is_iff]

theorem isIdent_iff {t : TokRef} : t.isIdent = true ↔ ∃ x, t.token.type = .identifier x := by
  unfold TokRef.isIdent
  cases t.token.type <;> simp [TokenType.kind]

theorem isString_iff {t : TokRef} : t.isString = true ↔ t.token.type.kind = .stringLiteral := by simp [TokRef.isString]
theorem isNumber_iff {t : TokRef} : t.isNumber = true ↔ t.token.type.kind = .number := by simp [TokRef.isNumber]
theorem isNamed_iff {x : Text} {t : TokRef} : isNamed x t = true ↔ t.token.type = .identifier x := by simp [isNamed]

/-! ## Conformance of the nodes the parser builds -/

theorem conf_tok {x : Term} {t : TokRef} : Conforms c (.tok x) (.tok t) ↔ x.Is t := by simp only [Conforms]

theorem conf_cat {k : Kind} {a : Cat} {cs : List Node} : Conforms c (.cat a) (.node k cs) ↔
    k.cat = some a ∧ available c k = true ∧ ConformsAll c (production c.feat k) cs ∧ Connected c k cs := by simp only [Conforms]

theorem conf_type {k : Kind} {cs : List Node} : Conforms c .type (.node k cs) ↔
    k.cat = some .typeInfo ∧ isPack k = false ∧ available c k = true ∧ ConformsAll c (production c.feat k) cs ∧ Connected c k cs := by
  simp only [Conforms]

theorem conf_type_cat {n : Node} (h : Conforms c .type n) : Conforms c (.cat .typeInfo) n := by
  cases n with
  | tok t => simp [Conforms] at h
  | node k cs => rw [conf_type] at h; rw [conf_cat]; exact ⟨h.1, h.2.2⟩

theorem confAll_cons {p : Part} {ps : List Part} {n : Node} {ns : List Node} :
    ConformsAll c (p :: ps) (n :: ns) ↔ Conforms c p n ∧ ConformsAll c ps ns := by simp only [ConformsAll]

theorem confAll_nil : ConformsAll c [] [] ↔ True := by simp only [ConformsAll]

theorem conf_span {o e : TokRef} {a b : Symbol} : Conforms c (.span a b) (span o e) ↔ is a o = true ∧ is b e = true := by
  simp [span, Node.spanOf, Conforms, ConformsAll, Term.Is, is_iff]

theorem conf_none {p : Part} : Conforms c (.opt p) .none ↔ True := by simp [Node.none, Conforms]
theorem conf_some {p : Part} {n : Node} : Conforms c (.opt p) (.some n) ↔ Conforms c p n := by
  simp [Node.some, Conforms, ConformsAll]

theorem conf_optTok {x : Term} {o : Option TokRef} : Conforms c (.opt (.tok x)) (optTok o) ↔ OptP x.Is o := by
  cases o
  · simp [optTok, conf_none, OptP]
  · simp [optTok, conf_some, OptP, conf_tok]

theorem conf_optNode {p : Part} {o : Option Node} : Conforms c (.opt p) (optNode o) ↔ OptP (Conforms c p) o := by
  cases o
  · simp [optNode, conf_none, OptP]
  · simp [optNode, conf_some, OptP]

theorem confEach_iff {p : Part} : ∀ {ns : List Node}, ConformsEach c p ns ↔ AllP (Conforms c p) ns
  | [] => by simp [ConformsEach, AllP]
  | n :: ns => by simp [ConformsEach, confEach_iff (ns := ns), AllP]

theorem conf_vec {p : Part} {ns : List Node} : Conforms c (.many p) (vec ns) ↔ AllP (Conforms c p) ns := by
  simp [vec, Conforms, confEach_iff]

theorem conf_vec1 {p : Part} {ns : List Node} : Conforms c (.some p) (vec ns) ↔ AllP (Conforms c p) ns ∧ ns ≠ [] := by
  simp [vec, Conforms, confEach_iff]

theorem conf_optVec {p : Part} {ns : List Node} : Conforms c (.opt (.some p)) (optVec ns) ↔ AllP (Conforms c p) ns := by
  unfold optVec
  cases ns with
  | nil => simp [conf_none, AllP]
  | cons n ns => simp [conf_some, conf_vec1]

theorem conf_tuple {p q : Part} {x y : Node} : Conforms c (.pair p q) (.node .tuple [x, y]) ↔ Conforms c p x ∧ Conforms c q y := by
  simp [Conforms, ConformsAll]

/-- The values of a list satisfy `P`, its separators are among the given symbols. -/
def PEl (P : α → Prop) (seps : List Symbol) (p : Punctuated α) : Prop :=
  ∀ x ∈ p.pairs, P x.value ∧ ∀ t, x.punctuation = some t → (Term.sym seps).Is t

/-- All elements have a separator. -/
def Open (p : Punctuated α) : Prop := ∀ x ∈ p.pairs, x.punctuation ≠ none

/-- Separators stand between the elements. -/
def Sep (style : FM.Spec.Style) (p : Punctuated α) : Prop :=
  (∀ x ∈ p.pairs.dropLast, x.punctuation ≠ none) ∧ (style = .nonempty → p.pairs ≠ []) ∧
  (style ≠ .trailing → ∀ x, p.pairs.getLast? = some x → x.punctuation = none)

theorem confPairs_iff {p : Part} {seps : List Symbol} : ∀ {l : List (Pair Node)},
    ConformsPairs c p seps (l.map pairNode) ↔ PEl (Conforms c p) seps ⟨l⟩
  | [] => by simp [ConformsPairs, PEl]
  | .end v :: l => by
    simp only [List.map_cons, pairNode, ConformsPairs, confPairs_iff (l := l), PEl, confAll_cons, confAll_nil, and_true, List.mem_cons,
      forall_eq_or_imp, Pair.value, Pair.punctuation]
    simp
  | .punctuated v t :: l => by
    simp only [List.map_cons, pairNode, ConformsPairs, confPairs_iff (l := l), PEl, confAll_cons, confAll_nil, and_true, List.mem_cons,
      forall_eq_or_imp, Pair.value, Pair.punctuation, conf_tok]
    simp

theorem kindOf_pairNode_punct {x : Pair Node} : kindOf (pairNode x) = some .pairPunct ↔ x.punctuation ≠ none := by
  cases x <;> simp [pairNode, kindOf, Pair.punctuation]
theorem kindOf_pairNode_end {x : Pair Node} : kindOf (pairNode x) = some .pairEnd ↔ x.punctuation = none := by
  cases x <;> simp [pairNode, kindOf, Pair.punctuation]

theorem separated_iff {style : FM.Spec.Style} {p : Punctuated Node} : Separated style (p.pairs.map pairNode) ↔ Sep style p := by
  unfold Separated Sep
  rw [← List.map_dropLast]
  simp only [List.mem_map, forall_exists_index, and_imp, forall_apply_eq_imp_iff₂, kindOf_pairNode_punct, List.getLast?_map,
    Option.map_eq_some_iff, kindOf_pairNode_end, ne_eq, List.map_eq_nil_iff]

theorem conf_punct {p : Part} {seps : List Symbol} {style : FM.Spec.Style} {ps : Punctuated Node} :
    Conforms c (.list p seps style) (punct ps) ↔ PEl (Conforms c p) seps ps ∧ Sep style ps := by
  simp only [punct, Conforms, confPairs_iff, separated_iff]

theorem PEl.new {P : α → Prop} {seps : List Symbol} : PEl P seps (.new : Punctuated α) := by simp [PEl, Punctuated.new]
theorem Open.new : Open (.new : Punctuated α) := by simp [Open, Punctuated.new]
theorem PEl.push_end {P : α → Prop} {seps : List Symbol} {p : Punctuated α} (h : PEl P seps p) {v : α} (hv : P v) :
    PEl P seps (p.push (.end v)) := by
  intro x hx
  simp only [Punctuated.push, List.mem_append, List.mem_singleton] at hx
  rcases hx with hx | rfl
  · exact h x hx
  · exact ⟨hv, by simp [Pair.punctuation]⟩
theorem PEl.push_punct {P : α → Prop} {seps : List Symbol} {p : Punctuated α} (h : PEl P seps p) {v : α} {t : TokRef} (hv : P v)
    (ht : (Term.sym seps).Is t) : PEl P seps (p.push (.punctuated v t)) := by
  intro x hx
  simp only [Punctuated.push, List.mem_append, List.mem_singleton] at hx
  rcases hx with hx | rfl
  · exact h x hx
  · refine ⟨hv, ?_⟩
    intro u hu
    simp only [Pair.punctuation, Option.some.injEq] at hu
    rwa [← hu]
theorem PEl.mono {P Q : α → Prop} {seps : List Symbol} {p : Punctuated α} (h : PEl P seps p) (hq : ∀ a, P a → Q a) : PEl Q seps p :=
  fun x hx => ⟨hq _ (h x hx).1, (h x hx).2⟩
theorem PEl.map {P : α → Prop} {Q : β → Prop} {f : α → β} {seps : List Symbol} {p : Punctuated α} (h : PEl P seps p)
    (hq : ∀ a, P a → Q (f a)) : PEl Q seps ⟨p.pairs.map (Pair.map f)⟩ := by
  intro x hx
  obtain ⟨y, hy, rfl⟩ := List.mem_map.1 hx
  have := h y hy
  cases y <;> exact ⟨hq _ this.1, this.2⟩

theorem Open.push_punct {p : Punctuated α} (h : Open p) {v : α} {t : TokRef} : Open (p.push (.punctuated v t)) := by
  intro x hx
  simp only [Punctuated.push, List.mem_append, List.mem_singleton] at hx
  rcases hx with hx | rfl
  · exact h x hx
  · simp [Pair.punctuation]

theorem Open.push_end {p : Punctuated α} (h : Open p) {v : α} {style : FM.Spec.Style} : Sep style (p.push (.end v)) := by
  refine ⟨?_, ?_, ?_⟩
  · intro x hx
    simp only [Punctuated.push, List.dropLast_concat] at hx
    exact h x hx
  · simp [Punctuated.push]
  · intro _ x hx
    simp only [Punctuated.push, List.getLast?_concat, Option.some.injEq] at hx
    rw [← hx]; rfl

theorem Open.trailing {p : Punctuated α} (h : Open p) : Sep .trailing p :=
  ⟨fun x hx => h x (List.dropLast_subset _ hx), nofun, fun h => absurd rfl h⟩

theorem Sep.empty {style : FM.Spec.Style} (h : style ≠ .nonempty) : Sep style (.new : Punctuated α) :=
  ⟨by simp [Punctuated.new], fun h' => absurd h' h, by simp [Punctuated.new]⟩

theorem Sep.any {style : FM.Spec.Style} {p : Punctuated α} (h : Sep style p) (hs : style ≠ .trailing) : Sep .any p :=
  ⟨h.1, nofun, fun _ => h.2.2 hs⟩

theorem pair_map_punctuation {f : α → β} {x : Pair α} : (Pair.map f x).punctuation = x.punctuation := by cases x <;> rfl

theorem Sep.map {style : FM.Spec.Style} {f : α → β} {p : Punctuated α} (h : Sep style p) :
    Sep style ⟨p.pairs.map (Pair.map f)⟩ := by
  obtain ⟨h1, h2, h3⟩ := h
  refine ⟨?_, ?_, ?_⟩
  · intro x hx
    rw [← List.map_dropLast] at hx
    obtain ⟨y, hy, rfl⟩ := List.mem_map.1 hx
    rw [pair_map_punctuation]; exact h1 y hy
  · intro hs; simpa using h2 hs
  · intro hs x hx
    simp only [List.getLast?_map, Option.map_eq_some_iff] at hx
    obtain ⟨y, hy, rfl⟩ := hx
    rw [pair_map_punctuation]; exact h3 hs y hy

/-! ## Nodes that are the chosen reading -/

theorem everys_iff {p : Kind → List Node → Prop} : ∀ {ns : List Node}, Node.Every.everys p ns ↔ ∀ n ∈ ns, n.Every p
  | [] => by simp [Node.Every.everys]
  | n :: ns => by simp [Node.Every.everys, everys_iff (ns := ns)]

theorem every_node {p : Kind → List Node → Prop} {k : Kind} {cs : List Node} : (Node.node k cs).Every p ↔ p k cs ∧ ∀ n ∈ cs, n.Every p := by
  rw [Node.Every, everys_iff]

@[simp] theorem every_tok {p : Kind → List Node → Prop} {t : TokRef} : (Node.tok t).Every p ↔ True := by simp [Node.Every]

/-- The node conforms to the grammar and, in Luau, is the one that is read. -/
def Conf (c : Cfg) (p : Part) (n : Node) : Prop := Conforms c p n ∧ (c.luau = true → n.Every Chosen)

/-- So do these nodes. -/
def ConfAll (c : Cfg) (ps : List Part) (ns : List Node) : Prop := ConformsAll c ps ns ∧ (c.luau = true → ∀ n ∈ ns, n.Every Chosen)

theorem cnf_tok {x : Term} {t : TokRef} : Conf c (.tok x) (.tok t) ↔ x.Is t := by simp [Conf, conf_tok]

theorem cnf_cat {k : Kind} {a : Cat} {cs : List Node} : Conf c (.cat a) (.node k cs) ↔
    k.cat = some a ∧ available c k = true ∧ ConfAll c (production c.feat k) cs ∧ Connected c k cs ∧ (c.luau = true → Chosen k cs) := by
  simp only [Conf, ConfAll, conf_cat, every_node]
  exact ⟨fun ⟨⟨h1, h2, h3, h4⟩, h5⟩ => ⟨h1, h2, ⟨h3, fun h => (h5 h).2⟩, h4, fun h => (h5 h).1⟩,
    fun ⟨h1, h2, ⟨h3, h5⟩, h4, h6⟩ => ⟨⟨h1, h2, h3, h4⟩, fun h => ⟨h6 h, h5 h⟩⟩⟩

theorem cnf_type {k : Kind} {cs : List Node} : Conf c .type (.node k cs) ↔
    k.cat = some .typeInfo ∧ isPack k = false ∧ available c k = true ∧ ConfAll c (production c.feat k) cs ∧ Connected c k cs ∧
      (c.luau = true → Chosen k cs) := by
  simp only [Conf, ConfAll, conf_type, every_node]
  exact ⟨fun ⟨⟨h1, h0, h2, h3, h4⟩, h5⟩ => ⟨h1, h0, h2, ⟨h3, fun h => (h5 h).2⟩, h4, fun h => (h5 h).1⟩,
    fun ⟨h1, h0, h2, ⟨h3, h5⟩, h4, h6⟩ => ⟨⟨h1, h0, h2, h3, h4⟩, fun h => ⟨h6 h, h5 h⟩⟩⟩

theorem cnf_type_cat {n : Node} (h : Conf c .type n) : Conf c (.cat .typeInfo) n := ⟨conf_type_cat h.1, h.2⟩

theorem cnfAll_cons {p : Part} {ps : List Part} {n : Node} {ns : List Node} :
    ConfAll c (p :: ps) (n :: ns) ↔ Conf c p n ∧ ConfAll c ps ns := by
  simp only [Conf, ConfAll, confAll_cons, List.mem_cons, forall_eq_or_imp]
  exact ⟨fun ⟨⟨h1, h2⟩, h⟩ => ⟨⟨h1, fun hl => (h hl).1⟩, h2, fun hl => (h hl).2⟩,
    fun ⟨⟨h1, h3⟩, h2, h4⟩ => ⟨⟨h1, h2⟩, fun hl => ⟨h3 hl, h4 hl⟩⟩⟩

theorem cnfAll_nil : ConfAll c [] [] ↔ True := by simp [ConfAll, confAll_nil]

theorem cnf_span {o e : TokRef} {a b : Symbol} : Conf c (.span a b) (span o e) ↔ is a o = true ∧ is b e = true := by
  simp only [Conf, conf_span]
  simp [span, Node.spanOf, every_node]

theorem cnf_none {p : Part} : Conf c (.opt p) .none ↔ True := by simp [Conf, conf_none]; simp [Node.none, every_node]
theorem cnf_some {p : Part} {n : Node} : Conf c (.opt p) (.some n) ↔ Conf c p n := by
  simp only [Conf, conf_some]
  simp [Node.some, every_node]

theorem cnf_optTok {x : Term} {o : Option TokRef} : Conf c (.opt (.tok x)) (optTok o) ↔ OptP x.Is o := by
  cases o
  · simp [optTok, cnf_none, OptP]
  · simp [optTok, cnf_some, OptP, cnf_tok]

theorem cnf_optNode {p : Part} {o : Option Node} : Conf c (.opt p) (optNode o) ↔ OptP (Conf c p) o := by
  cases o
  · simp [optNode, cnf_none, OptP]
  · simp [optNode, cnf_some, OptP]

theorem allP_conf {p : Part} {ns : List Node} :
    AllP (Conf c p) ns ↔ AllP (Conforms c p) ns ∧ (c.luau = true → ∀ n ∈ ns, n.Every Chosen) := by
  constructor
  · exact fun h => ⟨fun n hn => (h n hn).1, fun hl n hn => (h n hn).2 hl⟩
  · exact fun h n hn => ⟨h.1 n hn, fun hl => h.2 hl n hn⟩

theorem cnf_vec {p : Part} {ns : List Node} : Conf c (.many p) (vec ns) ↔ AllP (Conf c p) ns := by
  rw [allP_conf, Conf, conf_vec]
  simp [vec, every_node]

theorem cnf_vec1 {p : Part} {ns : List Node} : Conf c (.some p) (vec ns) ↔ AllP (Conf c p) ns ∧ ns ≠ [] := by
  rw [allP_conf, Conf, conf_vec1]
  simp only [vec, every_node, chosen_vec, true_and]
  exact ⟨fun ⟨⟨h1, h2⟩, h3⟩ => ⟨⟨h1, h3⟩, h2⟩, fun ⟨⟨h1, h3⟩, h2⟩ => ⟨⟨h1, h2⟩, h3⟩⟩

theorem cnf_optVec {p : Part} {ns : List Node} : Conf c (.opt (.some p)) (optVec ns) ↔ AllP (Conf c p) ns := by
  unfold optVec
  cases ns with
  | nil => simp [cnf_none, AllP]
  | cons n ns => simp [cnf_some, cnf_vec1]

theorem cnf_tuple {p q : Part} {x y : Node} : Conf c (.pair p q) (.node .tuple [x, y]) ↔ Conf c p x ∧ Conf c q y := by
  simp only [Conf, conf_tuple, every_node, chosen_tuple, true_and, List.mem_cons, forall_eq_or_imp, List.not_mem_nil, false_implies, implies_true,
    and_true]
  exact ⟨fun ⟨⟨h1, h2⟩, h⟩ => ⟨⟨h1, fun hl => (h hl).1⟩, h2, fun hl => (h hl).2⟩,
    fun ⟨⟨h1, h3⟩, h2, h4⟩ => ⟨⟨h1, h2⟩, fun hl => ⟨h3 hl, h4 hl⟩⟩⟩

theorem every_pairNode {p : Kind → List Node → Prop} (he : ∀ cs, p .pairEnd cs) (hp : ∀ cs, p .pairPunct cs) {x : Pair Node} :
    (pairNode x).Every p ↔ x.value.Every p := by
  cases x <;> simp [pairNode, every_node, Pair.value, he, hp]

theorem cnf_punct {p : Part} {seps : List Symbol} {style : FM.Spec.Style} {ps : Punctuated Node} :
    Conf c (.list p seps style) (punct ps) ↔ PEl (Conf c p) seps ps ∧ Sep style ps := by
  have h : (punct ps).Every Chosen ↔ ∀ x ∈ ps.pairs, x.value.Every Chosen := by
    have e : ∀ x : Pair Node, (pairNode x).Every Chosen ↔ x.value.Every Chosen := fun x =>
      every_pairNode (fun _ => trivial) (fun _ => trivial)
    rw [punct, every_node]
    simp [e]
  rw [Conf, conf_punct, h]
  constructor
  · exact fun ⟨⟨h1, h2⟩, h3⟩ => ⟨fun x hx => ⟨⟨(h1 x hx).1, fun hl => h3 hl x hx⟩, (h1 x hx).2⟩, h2⟩
  · exact fun ⟨h1, h2⟩ => ⟨⟨fun x hx => ⟨(h1 x hx).1.1, (h1 x hx).2⟩, h2⟩, fun hl x hx => (h1 x hx).1.2 hl⟩

/-! ## Print order of the nodes the parser builds -/

@[simp] theorem flat_none : Node.none.flat = [] := by rw [Node.none, Node.flat_plain rfl]; rfl
@[simp] theorem flat_some {n : Node} : (Node.some n).flat = n.flat := by rw [Node.some, Node.flat_plain rfl]; simp
@[simp] theorem flat_optTok {o : Option TokRef} : (optTok o).flat = yield o := by cases o <;> simp [optTok]
@[simp] theorem flat_optNode {o : Option Node} : (optNode o).flat = yield o := by cases o <;> simp [optNode]
@[simp] theorem flat_vec' {ns : List Node} : (vec ns).flat = yield ns := by rw [vec, flat_vec]; rfl
@[simp] theorem flat_pairNode {x : Pair Node} : (pairNode x).flat = yield x := by
  cases x <;> simp [pairNode, Node.flat_plain (show Kind.pairEnd.layout = none from rfl), Node.flat_plain (show Kind.pairPunct.layout = none from rfl)]
@[simp] theorem flat_punct' {p : Punctuated Node} : (punct p).flat = yield p := by
  rw [punct, flat_punct, List.flatMap_map]
  simp only [flat_pairNode]; rfl
@[simp] theorem flat_span' {o e : TokRef} : (span o e).flat = [o, e] := flat_span o e
@[simp] theorem flat_optVec {ns : List Node} : (optVec ns).flat = yield ns := by
  unfold optVec
  cases ns with
  | nil => simp
  | cons n ns => simp

/-- The tokens of a block. -/
instance : Yield Blk := ⟨fun b => yield b.stmts ++ yield b.last⟩

theorem yield_blk (b : Blk) : yield b = yield b.stmts ++ yield b.last := rfl

@[simp] theorem flat_stmtNode (s : Node × Option TokRef) : (stmtNode s).flat = yield s := by
  obtain ⟨a, b⟩ := s
  rw [stmtNode, Node.flat_plain rfl]; simp

@[simp] theorem flat_blk (b : Blk) : b.node.flat = yield b := by
  obtain ⟨ss, l⟩ := b
  rw [Blk.node, Node.flat_plain rfl]
  have h : yield (ss.map stmtNode) = yield ss := by
    simp only [yield_list, List.flatMap_map]
    congr 1; funext s; simp
  cases l with
  | none => simp [h, yield_blk]
  | some s => simp [h, yield_blk]

/-! ## Lists -/

theorem cwp_dropTrailing {m : String} {p : Punctuated α} {l : List TokRef} {Q : Punctuated α → List TokRef → Prop}
    (h : (∀ x, p.pairs.getLast? = some x → x.punctuation = none) → Q p l) : cwp (dropTrailing m p) l Q := by
  unfold dropTrailing
  split
  · exact cwp_bind cwp_tokenError
  · rename_i hpop
    refine cwp_pure (h ?_)
    intro x hx
    cases x with
    | «end» v => rfl
    | punctuated v t => exact absurd (by simp [Punctuated.pop, hx]) (hpop v t ⟨p.pairs.dropLast⟩)

theorem oneOrMoreLoop_clean [Yield α] {P : α → Prop} {parser : M (Res α)} {d : Symbol} (hp : ∀ l, cwp parser l (RQ P l)) :
    ∀ (m : Nat) (l : List TokRef) (values : Punctuated α), PEl P [d] values → Open values →
    cwp (oneOrMoreLoop parser d m values) l (fun r l' => PEl P [d] r ∧ (∀ x ∈ r.pairs.dropLast, x.punctuation ≠ none) ∧
      (values.pairs ≠ [] → r.pairs ≠ []) ∧ yield values ++ l = yield r ++ l')
  | 0, _, _, _, _ => cwp_diverge
  | m + 1, l, values, hv, ho => by
    unfold oneOrMoreLoop
    refine cwp_bind (cwp_res (hp l) (fun v l' h hl => ?_) ?_)
    · subst hl
      refine cwp_bind (cwp_consumeIf (fun t rest hl ht => ?_) fun t hd ht => ?_)
      · subst hl
        refine cwp_mono (oneOrMoreLoop_clean hp m rest _ (hv.push_punct h ⟨d, by simp, is_iff.1 ht⟩) ho.push_punct) fun r l' hr => ?_
        refine ⟨hr.1, hr.2.1, fun _ => hr.2.2.1 (by simp [Punctuated.push]), ?_⟩
        rw [← hr.2.2.2]; simp
      · refine cwp_pure ⟨hv.push_end h, (ho.push_end (style := .any)).1, fun _ => by simp [Punctuated.push], by simp⟩
    · exact cwp_pure ⟨hv, fun x hx => ho x (List.dropLast_subset _ hx), id, rfl⟩

theorem oneOrMore_clean [Yield α] {P : α → Prop} {parser : M (Res α)} {d : Symbol} (hp : ∀ l, cwp parser l (RQ P l)) (l : List TokRef) :
    cwp (oneOrMore parser d) l (RQ (fun p => PEl P [d] p ∧ Sep .nonempty p) l) := by
  unfold oneOrMore
  refine cwp_bind (cwp_fuel fun n => ?_)
  refine cwp_bind (cwp_mono (oneOrMoreLoop_clean hp n l .new .new .new) fun r l' hr => ?_)
  obtain ⟨h1, h2, -, h4⟩ := hr
  refine cwp_ite (fun he => cwp_pure ?_) fun he => ?_
  · have : r.pairs = [] := by simpa [Punctuated.isEmpty, Punctuated.len] using he
    obtain ⟨ps⟩ := r
    subst this
    show l' = l
    simpa using h4.symm
  · refine cwp_bind (cwp_dropTrailing fun h => cwp_pure ?_)
    have : r.pairs ≠ [] := by simpa [Punctuated.isEmpty, Punctuated.len] using he
    exact ⟨⟨h1, h2, fun _ => this, fun _ => h⟩, by simpa using h4⟩

/-- What holds after a value holds after a list that ends with it. -/
theorem oneOrMoreLoop_last {R : α → List TokRef → Prop} {parser : M (Res α)} {d : Symbol}
    (hp : ∀ l, cwp parser l fun r l' => ∀ v, r = .value v → R v l') : ∀ (m : Nat) (l : List TokRef) (values : Punctuated α), Open values →
    cwp (oneOrMoreLoop parser d m values) l fun r l' => ∀ v, r.pairs.getLast? = some (.end v) → R v l'
  | 0, _, _, _ => cwp_diverge
  | m + 1, l, values, ho => by
    have stop : ∀ {l'}, cwp (pure values : M (Punctuated α)) l' fun r l' => ∀ v, r.pairs.getLast? = some (.end v) → R v l' := by
      refine cwp_pure fun v hv => ?_
      exact absurd rfl (ho _ (List.mem_of_getLast? hv))
    unfold oneOrMoreLoop
    refine cwp_bind (cwp_mono (hp l) fun r l' hr => ?_)
    cases r with
    | value v =>
      refine cwp_bind (cwp_consumeIf (fun t rest hl ht => ?_) fun t hd ht => ?_)
      · exact oneOrMoreLoop_last hp m rest _ ho.push_punct
      · refine cwp_pure fun w hw => ?_
        simp only [Punctuated.push, List.getLast?_concat, Option.some.injEq, Pair.end.injEq] at hw
        exact hw ▸ hr v rfl
    | moved => exact stop
    | notFound => exact stop

theorem oneOrMore_last {R : α → List TokRef → Prop} {parser : M (Res α)} {d : Symbol}
    (hp : ∀ l, cwp parser l fun r l' => ∀ v, r = .value v → R v l') (l : List TokRef) :
    cwp (oneOrMore parser d) l fun r l' => ∀ p v, r = .value p → p.pairs.getLast? = some (.end v) → R v l' := by
  unfold oneOrMore
  refine cwp_bind (cwp_fuel fun n => ?_)
  refine cwp_bind (cwp_mono (oneOrMoreLoop_last hp n l .new .new) fun r l' hr => ?_)
  refine cwp_ite (fun he => cwp_pure nofun) fun he => ?_
  refine cwp_bind (cwp_dropTrailing fun h => cwp_pure ?_)
  intro p v hp hv
  cases hp
  exact hr v hv

/-! ## Tactics -/

@[simp] theorem Is_sym {s : Symbol} {t : TokRef} : (Term.sym [s]).Is t ↔ is s t = true := by simp [Term.Is, is_iff]
@[simp] theorem Is_sym2 {s s' : Symbol} {t : TokRef} : (Term.sym [s, s']).Is t ↔ is s t = true ∨ is s' t = true := by
  simp [Term.Is, is_iff]
@[simp] theorem Is_name {t : TokRef} : Term.name.Is t ↔ t.isIdent = true := isIdent_iff.symm
@[simp] theorem Is_nameOrNil {t : TokRef} : Term.nameOrNil.Is t ↔ t.isIdent = true ∨ is .kNil t = true := by
  simp [Term.Is, is_iff, isIdent_iff]
@[simp] theorem Is_string {t : TokRef} : Term.string.Is t ↔ t.isString = true := isString_iff.symm
@[simp] theorem Is_number {t : TokRef} : Term.number.Is t ↔ t.isNumber = true := isNumber_iff.symm
@[simp] theorem Is_word {x : Text} {t : TokRef} : (Term.word [x]).Is t ↔ isNamed x t = true := by simp [Term.Is, isNamed_iff]
@[simp] theorem Is_word2 {x y : Text} {t : TokRef} : (Term.word [x, y]).Is t ↔ isNamed x t = true ∨ isNamed y t = true := by
  simp [Term.Is, isNamed_iff]

theorem ident_display {t : TokRef} {x : Text} (h : t.isIdent = true) (hd : t.token.display = x) : isNamed x t = true := by
  obtain ⟨y, hy⟩ := isIdent_iff.1 h
  rw [isNamed_iff, hy]
  simpa [Token.display, hy, TokenType.display] using hd

open Lean Elab Tactic Meta in
/-- Checks that the goal is about the parser function of the given name. -/
elab "cwp_head" n:ident : tactic => withMainContext do
  let e := (← instantiateMVars (← getMainTarget)).consumeMData
  unless e.isAppOfArity ``cwp 4 do throwError "not about a parser function"
  let some f := (e.getArg! 1).consumeMData.getAppFn.constName? | throwError "not a constant"
  unless f == (← realizeGlobalConstNoOverload n) do throwError "another function"

/-- One step: use the specification of the function at the front. -/
syntax "cspec" : tactic
macro_rules | `(tactic| cspec) => `(tactic| fail "no specification")

/-- One step through a parser function. -/
macro "cstep" : tactic => `(tactic| (with_reducible first
  | (cwp_head Pure.pure; refine cwp_pure ?_)
  | (cwp_head Bind.bind; refine cwp_bind ?_)
  | (cwp_head ite; first | refine cwp_ite_true ?_ | refine cwp_ite_false ?_ | refine cwp_ite_and_false ?_ | refine cwp_ite_and_true ?_ | refine cwp_ite_some ?_ | refine cwp_ite_none ?_ | refine cwp_ite (fun _ => ?_) (fun _ => ?_))
  | (cwp_head panic; exact cwp_panic)
  | (cwp_head diverge; exact cwp_diverge)
  | (cwp_head giveUp; exact cwp_giveUp)
  | (cwp_head tokenError; exact cwp_tokenError)
  | (cwp_head tokenErrorRanged; exact cwp_tokenErrorRanged)
  | (cwp_head current; first | refine cwp_current_hd (by assumption) ?_ | refine cwp_current (fun _ _ => ?_))
  | (cwp_head take; first | refine cwp_take_peek (by assumption) (by assumption) (fun _ _ _ => ?_) | refine cwp_take_hd (by assumption) (fun _ _ => ?_) | refine cwp_take (fun _ _ _ => ?_))
  | (cwp_head consume; refine cwp_consume_hd (by assumption) (fun _ _ => ?_))
  | (cwp_head takeIf; first | refine cwp_takeIf_hd (by assumption) (fun _ _ _ => ?_) (fun _ => ?_) | refine cwp_takeIf (fun _ _ _ _ => ?_) (fun _ _ _ => ?_))
  | (cwp_head consumeIf; first | refine cwp_consumeIf_hd (by assumption) (fun _ _ _ => ?_) (fun _ => ?_) | refine cwp_consumeIf (fun _ _ _ _ => ?_) (fun _ _ _ => ?_))
  | (cwp_head consumeIfAny; first | refine cwp_consumeIfAny_hd (by assumption) (fun _ _ _ => ?_) (fun _ => ?_) | refine cwp_consumeIfAny (fun _ _ _ _ => ?_) (fun _ _ _ => ?_))
  | (cwp_head FM.Parser.require; first | refine cwp_require_hd (by assumption) (fun _ _ _ => ?_) | refine cwp_require (fun _ _ _ _ => ?_))
  | (cwp_head requireWithToken; refine cwp_requireWithToken (fun _ _ _ _ => ?_))
  | (cwp_head requireWithRange; refine cwp_requireWithRange (fun _ _ _ _ => ?_))
  | (cwp_head requireOr; refine cwp_requireOr (fun _ _ _ _ => ?_))
  | (cwp_head currentIs; first | refine cwp_currentIs_hd (by assumption) (fun _ => ?_) (fun _ => ?_) | refine cwp_currentIs (fun _ _ _ => ?_) (fun _ _ _ => ?_))
  | (cwp_head peekIs; refine cwp_peekIs (fun _ _ _ => ?_) (fun _ _ _ => ?_))
  | (cwp_head fuel; refine cwp_fuel (fun _ => ?_))
  | (cwp_head currentUnwrap; refine cwp_currentUnwrap (fun _ _ => ?_))
  | (cwp_head firstToken; refine cwp_firstToken (fun _ => ?_))
  | (cwp_head lastToken; refine cwp_lastToken (fun _ => ?_))
  | cspec) <;> (try subst_vars) <;> try dsimp only)

/-- All steps. -/
macro "csteps" : tactic => `(tactic| ((try dsimp only); repeat' cstep))

/-- Shows that a node conforms to the grammar. -/
macro "conf" : tactic => `(tactic| simp [cnf_cat, cnf_type, Kind.cat, production, cnfAll_cons, cnfAll_nil, cnf_tok, cnf_span, cnf_none,
  cnf_some, cnf_optTok, cnf_optNode, cnf_vec, cnf_vec1, cnf_optVec, cnf_tuple, cnf_punct, optP_none, optP_some, allP_nil, allP_one, isPack, *])

/-- Shows what tokens a node has. -/
macro "flat" : tactic => `(tactic| simp [span, flat_fieldExprKey, flat_tyArray,
  flat_tyCallback, flat_typeInst, flat_numericFor])

/-- Closes the end of a path through a function. -/
macro "cfin" : tactic => `(tactic| first
  | exact RQ.notFound
  | (first | refine RQ.value ?_ ?_ | refine OQ.some ?_ ?_ | refine FQ.value ?_ ?_ | refine VQ.mk ?_ ?_
     · conf
     · flat))

end FM.Parser.Clean
