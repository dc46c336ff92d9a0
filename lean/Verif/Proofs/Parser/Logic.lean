import Verif.Spec.Slots
import Verif.Model.Parser.Parse
import Verif.Proofs.StreamFacts
import Verif.Proofs.Ast.Tokens

/-! Helper lemmas: a program logic for parser functions. -/

namespace FM.Parser
open FM.Spec

/-- The token of a tokenizer result. -/
def tok? : LexRes TokRef → Option TokRef
  | .ok t => some t
  | .recovered t _ => some t
  | .fatal _ => none

/-- The symbol of a token, if it is one, is available. -/
def SymOk (c : Cfg) (t : TokRef) : Prop := ∀ s, t.token.type = .symbol s → Enabled c s

/-- What the parser may find in front of it: known tokens, with Eof at the end and nowhere else. -/
def Good (c : Cfg) (K : TokRef → Prop) (ts : Toks) : Prop :=
  (∀ x ∈ ts, ∀ t, tok? x = some t → K t ∧ SymOk c t) ∧
  ∃ pre x t, ts = pre ++ [x] ∧ tok? x = some t ∧ t.isEof = true ∧
    ∀ y ∈ pre, ∀ u, tok? y = some u → u.isEof = false

/-- The only circumstances under which the parser may panic. -/
def PanicOK (c : Cfg) (ts : Toks) : Prop :=
  c.luau = true ∧ ((∃ es, .fatal es ∈ ts) ∨ c.feat.lua53 = true ∧ c.lua53 = false)

/-- The tokenizer error in an error. -/
def Err.tokErr? : Err → Option TokErr
  | .tokenizer e => some e
  | .ast _ _ _ => none

/-- The token of a parser error is one of the known tokens, and so are those where its range starts and ends. -/
def Err.Known (K : TokRef → Prop) : Err → Prop
  | .tokenizer _ => True
  | .ast t _ range => ∃ r, K r ∧ t = r.token ∧ ∀ p, range = some p → ∃ a b, K a ∧ K b ∧ p = (a.token.start, b.token.stop)

/-- What was recorded between two states: the tokenizer errors of what was consumed, and parser errors at known
tokens. -/
def Acc (K : TokRef → Prop) (ts : Toks) (errs : List Err) (ts' : Toks) : Prop :=
  (∃ pre, ts = pre ++ ts' ∧ errs.filterMap Err.tokErr? = errorsOf pre) ∧ ∀ e ∈ errs, e.Known K

variable {c : Cfg} {K : TokRef → Prop} {α β : Type}

/-- Running `p` on `ts` ends in a state where `Q` holds, or panics with good reason. -/
def wp (c : Cfg) (K : TokRef → Prop) (p : M α) (ts : Toks) (Q : α → Toks → Prop) : Prop :=
  Good c K ts → match p ts with
    | .ok r => Good c K r.toks ∧ Acc K ts r.errs r.toks ∧ (c.luau = false → r.silent = 0) ∧ Q r.val r.toks
    | .panic => PanicOK c ts
    | .diverge => False

theorem Acc.refl (K : TokRef → Prop) (ts : Toks) : Acc K ts [] ts := ⟨⟨[], rfl, rfl⟩, by simp⟩

theorem Acc.trans {ts ts' ts'' : Toks} {es es' : List Err} (h : Acc K ts es ts') (h' : Acc K ts' es' ts'') :
    Acc K ts (es ++ es') ts'' := by
  obtain ⟨⟨p, rfl, e1⟩, k1⟩ := h
  obtain ⟨⟨q, rfl, e2⟩, k2⟩ := h'
  refine ⟨⟨p ++ q, by simp, ?_⟩, ?_⟩
  · rw [List.filterMap_append, e1, e2]; simp [errorsOf]
  · intro e he
    rcases List.mem_append.1 he with he | he
    · exact k1 e he
    · exact k2 e he

theorem Acc.length {ts ts' : Toks} {es : List Err} (h : Acc K ts es ts') : ts'.length ≤ ts.length := by
  obtain ⟨⟨p, rfl, -⟩, -⟩ := h; simp

theorem PanicOK.of_acc {ts ts' : Toks} {es : List Err} (h : Acc K ts es ts') (h' : PanicOK c ts') : PanicOK c ts := by
  obtain ⟨⟨p, rfl, -⟩, -⟩ := h
  refine ⟨h'.1, h'.2.imp ?_ id⟩
  rintro ⟨es, he⟩; exact ⟨es, List.mem_append_right _ he⟩

theorem wp_pure {a : α} {ts : Toks} {Q : α → Toks → Prop} (h : Q a ts) : wp c K (pure a) ts Q :=
  fun hg => ⟨hg, Acc.refl K ts, fun _ => rfl, h⟩

theorem wp_bind {p : M α} {f : α → M β} {ts : Toks} {Q : β → Toks → Prop}
    (h : wp c K p ts fun a ts' => wp c K (f a) ts' Q) : wp c K (p >>= f) ts Q := by
  intro hg
  have hb : (p >>= f) ts = M.bind p f ts := rfl
  rw [hb, M.bind]
  have h := h hg
  split at h
  · rename_i r hr
    rw [hr]
    obtain ⟨g, a, s, h⟩ := h
    have h := h g
    dsimp only [Run.andThen]
    split at h
    · rename_i r' hr'
      rw [hr']
      obtain ⟨g', a', s', h⟩ := h
      exact ⟨g', a.trans a', fun hl => by rw [s hl, s' hl], h⟩
    · rename_i hr'; rw [hr']; exact h.of_acc a
    · exact h.elim
  · rename_i hr; rw [hr]; exact h
  · exact h.elim

theorem wp_mono {p : M α} {ts : Toks} {Q Q' : α → Toks → Prop} (h : wp c K p ts Q)
    (hq : ∀ a ts', ts'.length ≤ ts.length → Q a ts' → Q' a ts') : wp c K p ts Q' := by
  intro hg
  have h := h hg
  split at h
  · exact ⟨h.1, h.2.1, h.2.2.1, hq _ _ h.2.1.length h.2.2.2⟩
  · exact h
  · exact h

theorem wp_good {p : M α} {ts : Toks} {Q : α → Toks → Prop} (h : Good c K ts → wp c K p ts Q) : wp c K p ts Q :=
  fun hg => h hg hg

theorem wp_ite {b : Prop} [Decidable b] {p q : M α} {ts : Toks} {Q : α → Toks → Prop}
    (h : b → wp c K p ts Q) (h' : ¬ b → wp c K q ts Q) : wp c K (if b then p else q) ts Q := by
  split
  · exact h ‹_›
  · exact h' ‹_›

theorem wp_ite_true {p q : M α} {ts : Toks} {Q : α → Toks → Prop} (h : wp c K p ts Q) :
    wp c K (if true = true then p else q) ts Q := h

theorem wp_ite_false {p q : M α} {ts : Toks} {Q : α → Toks → Prop} (h : wp c K q ts Q) :
    wp c K (if false = true then p else q) ts Q := h

theorem wp_ite_and_false {a : Bool} {p q : M α} {ts : Toks} {Q : α → Toks → Prop} (h : wp c K q ts Q) :
    wp c K (if (a && false) = true then p else q) ts Q := by cases a <;> exact h

theorem wp_ite_and_true {a : Bool} {p q : M α} {ts : Toks} {Q : α → Toks → Prop}
    (h : wp c K (if a = true then p else q) ts Q) :
    wp c K (if (a && true) = true then p else q) ts Q := by cases a <;> exact h

theorem wp_panic {ts : Toks} {Q : α → Toks → Prop} (h : PanicOK c ts) : wp c K (panic : M α) ts Q := fun _ => h

theorem wp_fuel {ts : Toks} {Q : Nat → Toks → Prop} (h : Q (ts.length + 1) ts) : wp c K fuel ts Q :=
  fun hg => ⟨hg, Acc.refl K ts, fun _ => rfl, h⟩

theorem wp_giveUp {ts : Toks} {Q : Unit → Toks → Prop} (hl : c.luau = true) (h : Q () ts) : wp c K giveUp ts Q :=
  fun hg => ⟨hg, Acc.refl K ts, fun h' => (by simp_all), h⟩

/-! ## Looking at and taking tokens -/

/-- The current token. -/
def Head (ts : Toks) (t : TokRef) : Prop := ts.head?.bind tok? = some t

theorem Head.cons {ts : Toks} {t : TokRef} (h : Head ts t) : ∃ x rest, ts = x :: rest ∧ tok? x = some t := by
  cases ts with
  | nil => simp [Head] at h
  | cons x rest => exact ⟨x, rest, rfl, by simpa [Head] using h⟩

theorem Head.inj {ts : Toks} {t u : TokRef} (h : Head ts t) (h' : Head ts u) : t = u := by
  rw [Head] at h h'; rw [h] at h'; exact Option.some.inj h'

theorem Good.length {ts : Toks} (h : Good c K ts) : 0 < ts.length := by
  obtain ⟨-, p, x, t, rfl, -⟩ := h; simp

theorem Good.head {ts : Toks} (h : Good c K ts) {t : TokRef} (ht : Head ts t) : K t ∧ SymOk c t := by
  obtain ⟨x, rest, rfl, hx⟩ := ht.cons
  exact h.1 x (by simp) t hx

theorem Good.tail {ts : Toks} (h : Good c K ts) (ht : ∀ t, Head ts t → t.isEof = false) : Good c K ts.tail := by
  obtain ⟨h1, p, x, t, rfl, hx, he, hp⟩ := h
  cases p with
  | nil => rw [ht t (by simp [Head, hx])] at he; cases he
  | cons y p =>
    exact ⟨fun z hz => h1 z (by simp at hz ⊢; exact .inr hz), p, x, t, rfl, hx, he, fun z hz => hp z (by simp [hz])⟩

theorem Good.eof {ts : Toks} (h : Good c K ts) {t : TokRef} (ht : Head ts t) (he : t.isEof = true) :
    ∃ x, ts = [x] ∧ tok? x = some t := by
  obtain ⟨h1, p, x, u, rfl, hx, -, hp⟩ := h
  cases p with
  | nil => exact ⟨x, rfl, by simpa [Head] using ht⟩
  | cons y p =>
    have := hp y (by simp) t (by simpa [Head] using ht)
    rw [this] at he; cases he

theorem wp_current {ts : Toks} {Q : Option TokRef → Toks → Prop} (h : ∀ t, Head ts t → K t → Q (some t) ts)
    (h' : (∀ t, ¬ Head ts t) → Q none ts) : wp c K current ts Q := by
  intro hg
  have hl := hg.length
  have hh := fun t => hg.head (t := t)
  rcases ts with _ | ⟨x | es | ⟨x, es⟩, rest⟩
  · simp at hl
  · exact ⟨hg, Acc.refl K _, fun _ => rfl, h x rfl (hh x rfl).1⟩
  · exact ⟨hg, Acc.refl K _, fun _ => rfl, h' (by simp [Head, tok?])⟩
  · exact ⟨hg, Acc.refl K _, fun _ => rfl, h x rfl (hh x rfl).1⟩

theorem wp_peek {ts : Toks} {t : TokRef} {Q : Option TokRef → Toks → Prop} (ht : Head ts t) (he : t.isEof = false)
    (h : ∀ u, Head ts.tail u → K u → Q (some u) ts) (h' : (∀ u, ¬ Head ts.tail u) → Q none ts) :
    wp c K peek ts Q := by
  intro hg
  have hg' := hg.tail fun u hu => by rw [← ht.inj hu]; exact he
  have hl := hg'.length
  have hh := fun u => hg'.head (t := u)
  rcases ts with _ | ⟨y, _ | ⟨x | es | ⟨x, es⟩, rest⟩⟩
  · simp at hl
  · simp at hl
  · exact ⟨hg, Acc.refl K _, fun _ => rfl, h x rfl (hh x rfl).1⟩
  · exact ⟨hg, Acc.refl K _, fun _ => rfl, h' (by simp [Head, tok?])⟩
  · exact ⟨hg, Acc.refl K _, fun _ => rfl, h x rfl (hh x rfl).1⟩

theorem filterMap_tokErr (es : List TokErr) : (es.map Err.tokenizer).filterMap Err.tokErr? = es := by
  induction es with
  | nil => rfl
  | cons e es ih => simp [Err.tokErr?, ih]

theorem known_tokenizer (es : List TokErr) : ∀ e ∈ es.map Err.tokenizer, e.Known K := by
  intro e he; obtain ⟨e, -, rfl⟩ := List.mem_map.1 he; trivial

theorem wp_take {ts : Toks} {t : TokRef} {Q : TokRef → Toks → Prop} (ht : Head ts t) (he : t.isEof = false)
    (h : K t → ts.tail.length + 1 = ts.length → Q t ts.tail) : wp c K take ts Q := by
  intro hg
  have hg' := hg.tail fun u hu => by rw [← ht.inj hu]; exact he
  have hk := (hg.head ht).1
  rcases ts with _ | ⟨x | es | ⟨x, es⟩, rest⟩
  · simp [Head] at ht
  · obtain rfl : x = t := by simpa [Head, tok?] using ht
    exact ⟨hg', ⟨⟨[.ok x], rfl, rfl⟩, by simp⟩, fun _ => rfl, h hk rfl⟩
  · simp [Head, tok?] at ht
  · obtain rfl : x = t := by simpa [Head, tok?] using ht
    refine ⟨hg', ⟨⟨[.recovered x es], rfl, ?_⟩, ?_⟩, fun _ => rfl, h hk rfl⟩
    · dsimp only [List.nil_append]; rw [List.append_nil, filterMap_tokErr]; simp [errorsOf]
    · dsimp only; rw [List.append_nil]; exact known_tokenizer es

theorem wp_consume {ts : Toks} {t : TokRef} {Q : Res TokRef → Toks → Prop} (ht : Head ts t) (he : t.isEof = false)
    (h : K t → ts.tail.length + 1 = ts.length → Q (.value t) ts.tail) : wp c K consume ts Q := by
  intro hg
  have hg' := hg.tail fun u hu => by rw [← ht.inj hu]; exact he
  have hk := (hg.head ht).1
  rcases ts with _ | ⟨x | es | ⟨x, es⟩, rest⟩
  · simp [Head] at ht
  · obtain rfl : x = t := by simpa [Head, tok?] using ht
    exact ⟨hg', ⟨⟨[.ok x], rfl, rfl⟩, by simp⟩, fun _ => rfl, h hk rfl⟩
  · simp [Head, tok?] at ht
  · obtain rfl : x = t := by simpa [Head, tok?] using ht
    refine ⟨hg', ⟨⟨[.recovered x es], rfl, ?_⟩, ?_⟩, fun _ => rfl, h hk rfl⟩
    · rw [filterMap_tokErr]; simp [errorsOf]
    · exact known_tokenizer es

theorem wp_tokenError {t : TokRef} {msg : String} {ts : Toks} {Q : Unit → Toks → Prop} (hk : K t) (h : Q () ts) :
    wp c K (tokenError t msg) ts Q :=
  fun hg => ⟨hg, ⟨⟨[], rfl, rfl⟩, by simp; exact ⟨t, hk, rfl, by simp⟩⟩, fun _ => rfl, h⟩

theorem wp_tokenErrorRanged {t a b : TokRef} {msg : String} {ts : Toks} {Q : Unit → Toks → Prop} (hk : K t) (ha : K a) (hb : K b)
    (h : Q () ts) : wp c K (tokenErrorRanged t msg a b) ts Q :=
  fun hg => ⟨hg, ⟨⟨[], rfl, rfl⟩, by simp; exact ⟨t, hk, rfl, fun _ hp => ⟨a, b, ha, hb, (Option.some.inj hp).symm⟩⟩⟩, fun _ => rfl, h⟩

theorem wp_currentUnwrap {ts : Toks} {Q : TokRef → Toks → Prop} (hl : c.luau = true)
    (h : ∀ t, Head ts t → K t → Q t ts) : wp c K currentUnwrap ts Q := by
  refine wp_bind (wp_current (fun t ht hk => wp_pure (h t ht hk)) fun hn => ?_)
  refine wp_good fun hg => wp_panic ⟨hl, .inl ?_⟩
  have := hg.length
  rcases ts with _ | ⟨x | es | ⟨x, es⟩, rest⟩
  · simp at this
  · exact absurd rfl (hn x)
  · exact ⟨es, by simp⟩
  · exact absurd rfl (hn x)

/-! ## Tokens that are not Eof -/

theorem isEof_eq {t : TokRef} : t.isEof = true ↔ t.token.type = .eof := by
  unfold TokRef.isEof
  cases t.token.type <;> simp [TokenType.kind]

/-- `p` holds of no Eof token. -/
def Solid (p : TokRef → Bool) : Prop := ∀ t, p t = true → t.isEof = false

theorem solid_iff {p : TokRef → Bool} : Solid p ↔ ∀ t : TokRef, t.token.type = .eof → p t = false := by
  constructor
  · intro h t ht
    cases hp : p t
    · rfl
    · have := h t hp; rw [isEof_eq.2 ht] at this; cases this
  · intro h t hp
    cases he : t.isEof
    · rfl
    · rw [h t (isEof_eq.1 he)] at hp; cases hp

theorem solid_is (s : Symbol) : Solid (is s) := solid_iff.2 fun t h => by simp [is, TokRef.isSymbol, h]
theorem solid_ident : Solid TokRef.isIdent := solid_iff.2 fun t h => by simp [TokRef.isIdent, h, TokenType.kind]
theorem solid_string : Solid TokRef.isString := solid_iff.2 fun t h => by simp [TokRef.isString, h, TokenType.kind]
theorem solid_number : Solid TokRef.isNumber := solid_iff.2 fun t h => by simp [TokRef.isNumber, h, TokenType.kind]
theorem solid_or {p q : TokRef → Bool} (hp : Solid p) (hq : Solid q) : Solid (fun t => p t || q t) := by
  intro t h
  rcases Bool.or_eq_true_iff.1 h with h | h
  · exact hp t h
  · exact hq t h
theorem solid_any (ss : List Symbol) : Solid (fun t => ss.any t.isSymbol) := by
  intro t h
  obtain ⟨s, -, h⟩ := List.any_eq_true.1 h
  exact solid_is s t h
theorem solid_named (x : Text) : Solid (isNamed x) := solid_iff.2 fun t h => by simp [isNamed, h]

theorem eof_and_left {a b : Bool} {t : TokRef} (h : (a && b) = true) (ha : a = true → t.isEof = false) : t.isEof = false :=
  ha (Bool.and_eq_true_iff.1 h).1
theorem eof_and_right {a b : Bool} {t : TokRef} (h : (a && b) = true) (hb : b = true → t.isEof = false) : t.isEof = false :=
  hb (Bool.and_eq_true_iff.1 h).2
theorem eof_or {a b : Bool} {t : TokRef} (h : (a || b) = true) (ha : a = true → t.isEof = false)
    (hb : b = true → t.isEof = false) : t.isEof = false := (Bool.or_eq_true_iff.1 h).elim ha hb

theorem wp_takeIf {p : TokRef → Bool} {ts : Toks} {Q : Took → Toks → Prop} (hp : Solid p)
    (h1 : ∀ t, Head ts t → K t → p t = true → ts.tail.length + 1 = ts.length → Q (.took t) ts.tail)
    (h2 : ∀ t, Head ts t → K t → p t = false → Q (.other t) ts)
    (h3 : (∀ t, ¬ Head ts t) → Q .fatal ts) : wp c K (takeIf p) ts Q := by
  refine wp_bind (wp_current (fun t ht hk => ?_) fun hn => wp_pure (h3 hn))
  refine wp_ite (fun hpt => ?_) fun hpt => wp_pure (h2 t ht hk (Bool.eq_false_iff.2 hpt))
  exact wp_bind (wp_take ht (hp t hpt) fun hk hl => wp_pure (h1 t ht hk hpt hl))

theorem wp_currentIs {p : TokRef → Bool} {ts : Toks} {Q : Bool → Toks → Prop}
    (h1 : ∀ t, Head ts t → K t → p t = true → Q true ts) (h2 : (∀ t, Head ts t → p t = false) → Q false ts) :
    wp c K (currentIs p) ts Q := by
  refine wp_bind (wp_current (fun t ht hk => wp_pure ?_) fun hn => wp_pure (h2 fun u hu => absurd hu (hn u)))
  cases hp : p t
  · exact h2 fun u hu => ht.inj hu ▸ hp
  · exact h1 t ht hk hp

theorem wp_peekIs {p : TokRef → Bool} {ts : Toks} {t : TokRef} {Q : Bool → Toks → Prop} (ht : Head ts t)
    (he : t.isEof = false)
    (h1 : ∀ t, Head ts.tail t → K t → p t = true → Q true ts) (h2 : Q false ts) : wp c K (peekIs p) ts Q := by
  refine wp_bind (wp_peek ht he (fun u hu hk => wp_pure ?_) fun hn => wp_pure h2)
  cases hp : p u
  · exact h2
  · exact h1 u hu hk hp

/-- `Q` after an attempt to take a token. -/
theorem wp_consumeIf {s : Symbol} {ts : Toks} {Q : Option TokRef → Toks → Prop}
    (h1 : ∀ t, Head ts t → K t → is s t = true → ts.tail.length + 1 = ts.length → Q (some t) ts.tail)
    (h2 : (∀ t, Head ts t → is s t = false) → Q none ts) : wp c K (consumeIf s) ts Q :=
  wp_bind (wp_takeIf (solid_is s) (fun t ht hk hp hl => wp_pure (h1 t ht hk hp hl))
    (fun _ ht _ hp => wp_pure (h2 fun _ hu => ht.inj hu ▸ hp))
    fun hn => wp_pure (h2 fun u hu => absurd hu (hn u)))

theorem wp_consumeIfAny {ss : List Symbol} {ts : Toks} {Q : Option TokRef → Toks → Prop}
    (h1 : ∀ t, Head ts t → K t → ss.any t.isSymbol = true → ts.tail.length + 1 = ts.length → Q (some t) ts.tail)
    (h2 : (∀ t, Head ts t → ss.any t.isSymbol = false) → Q none ts) : wp c K (consumeIfAny ss) ts Q :=
  wp_bind (wp_takeIf (solid_any ss) (fun t ht hk hp hl => wp_pure (h1 t ht hk hp hl))
    (fun _ ht _ hp => wp_pure (h2 fun _ hu => ht.inj hu ▸ hp))
    fun hn => wp_pure (h2 fun u hu => absurd hu (hn u)))

theorem wp_require {s : Symbol} {msg : String} {ts : Toks} {Q : Option TokRef → Toks → Prop}
    (h1 : ∀ t, Head ts t → K t → is s t = true → ts.tail.length + 1 = ts.length → Q (some t) ts.tail)
    (h2 : (∀ t, Head ts t → is s t = false) → Q none ts) : wp c K (require s msg) ts Q :=
  wp_bind (wp_takeIf (solid_is s) (fun t ht hk hp hl => wp_pure (h1 t ht hk hp hl))
    (fun _ ht hk hp => wp_bind (wp_tokenError hk (wp_pure (h2 fun _ hu => ht.inj hu ▸ hp))))
    fun hn => wp_pure (h2 fun u hu => absurd hu (hn u)))

theorem wp_requireWithToken {s : Symbol} {msg : String} {r : TokRef} {ts : Toks} {Q : Option TokRef → Toks → Prop} (hr : K r)
    (h1 : ∀ t, Head ts t → K t → is s t = true → ts.tail.length + 1 = ts.length → Q (some t) ts.tail)
    (h2 : Q none ts) : wp c K (requireWithToken s msg r) ts Q :=
  wp_bind (wp_takeIf (solid_is s) (fun t ht hk hp hl => wp_pure (h1 t ht hk hp hl))
    (fun _ _ _ _ => wp_bind (wp_tokenError hr (wp_pure h2))) fun _ => wp_pure h2)

theorem wp_requireWithRange {s : Symbol} {msg : String} {range : M (TokRef × TokRef)} {ts : Toks}
    {Q : Option TokRef → Toks → Prop}
    (hr : wp c K range ts fun r ts' => ts' = ts ∧ K r.1 ∧ K r.2)
    (h1 : ∀ t, Head ts t → K t → is s t = true → ts.tail.length + 1 = ts.length → Q (some t) ts.tail)
    (h2 : Q none ts) : wp c K (requireWithRange s msg range) ts Q := by
  refine wp_bind (wp_takeIf (solid_is s) (fun t ht hk hp hl => wp_pure (h1 t ht hk hp hl))
    (fun t ht hk _ => wp_bind (wp_mono hr ?_)) fun _ => wp_pure h2)
  rintro ⟨a, b⟩ _ _ ⟨rfl, ha, hb⟩
  exact wp_bind (wp_tokenErrorRanged hk ha hb (wp_pure h2))

/-! ## Tokens made by the parser -/

/-- A text the parser makes a token of, with the versions used for it. -/
def Makes (c : Cfg) (v : LuaVersion) (text : Text) : Prop :=
  (v = .lua51 ∧ text ∈ [c!"(", c!")", c!"\nend", c!"if ", c!" then", c!"while ", c!" do\n", c!"end\n", c!"do\n", c!"end",
    c!"do", c!"...", c!">", c!"}", c!"]", c!"="]) ∨
  (v = .default ∧ text = c!"::" ∧ (c.lua52 = true ∨ c.luajit = true))

/-- A token made by the parser, not found in the source. -/
def Phantom (c : Cfg) (t : TokRef) : Prop :=
  (∃ v text, Makes c v text ∧ symbolSpecific ⟨c.feat, v⟩ text = .ok (.ok t)) ∨ t = errorToken ∨ t = interpolatedEnd

/-- The tokens the parser makes are among the known ones. -/
class Phantoms (c : Cfg) (K : TokRef → Prop) : Prop where
  phantom : ∀ t, Phantom c t → K t

/-- A symbol was made. -/
def isOk : Outcome (Except TokErrType TokRef) → Bool
  | .ok (.ok _) => true
  | _ => false

/-- The texts the parser makes tokens of for Lua 5.1, and their symbols. -/
def madeTexts : List (Text × Symbol) :=
  [(c!"(", .leftParen), (c!")", .rightParen), (c!"\nend", .kEnd), (c!"if ", .kIf), (c!" then", .kThen), (c!"while ", .kWhile),
   (c!" do\n", .kDo), (c!"end\n", .kEnd), (c!"do\n", .kDo), (c!"end", .kEnd), (c!"do", .kDo), (c!"...", .ellipsis),
   (c!">", .greaterThan), (c!"}", .rightBrace), (c!"]", .rightBracket), (c!"=", .equal)]

/-- The given symbol was made. -/
def isMade (s : Symbol) : Outcome (Except TokErrType TokRef) → Bool
  | .ok (.ok t) => is s t
  | _ => false

theorem isMade_ok {s : Symbol} {o : Outcome (Except TokErrType TokRef)} (h : isMade s o = true) : isOk o = true := by
  unfold isMade at h
  split at h
  · rfl
  · cases h

theorem made_symbol : ∀ p ∈ madeTexts, ∀ a b d e g i, isMade p.2 (symbolSpecific ⟨⟨a, b, d, e, g, i⟩, .lua51⟩ p.1) = true := by
  decide +kernel

theorem made_lua51 {text : Text} (h : text ∈ [c!"(", c!")", c!"\nend", c!"if ", c!" then", c!"while ", c!" do\n", c!"end\n",
    c!"do\n", c!"end", c!"do", c!"...", c!">", c!"}", c!"]", c!"="]) (a b d e g i : Bool) :
    isOk (symbolSpecific ⟨⟨a, b, d, e, g, i⟩, .lua51⟩ text) = true := by
  obtain ⟨p, hp, rfl⟩ := List.mem_map.1 (show text ∈ madeTexts.map Prod.fst from h)
  exact isMade_ok (made_symbol p hp _ _ _ _ _ _)

theorem made_default : ∀ a b d e g i, b = true ∨ g = true →
    isMade .twoColons (symbolSpecific ⟨⟨a, b, d, e, g, i⟩, .default⟩ c!"::") = true := by
  decide +kernel

theorem Makes.ok {v : LuaVersion} {text : Text} (h : Makes c v text) : isOk (symbolSpecific ⟨c.feat, v⟩ text) = true := by
  rcases h with ⟨rfl, h⟩ | ⟨rfl, rfl, h⟩
  · exact made_lua51 h _ _ _ _ _ _
  · refine isMade_ok (made_default _ _ _ _ _ _ (h.imp (fun h => ?_) fun h => ?_))
    · exact (has_iff.1 h).1
    · exact (has_iff.1 h).1

theorem wp_made [Phantoms c K] {v : LuaVersion} {text : Text} {s : Symbol} {ts : Toks} {Q : TokRef → Toks → Prop}
    (hm : Makes c v text) (hs : isMade s (symbolSpecific ⟨c.feat, v⟩ text) = true)
    (h : ∀ t, K t → is s t = true → Q t ts) : wp c K (made c.feat v text) ts Q := by
  intro hg
  unfold made
  unfold isMade at hs
  split at hs
  · rename_i t ht
    rw [ht]
    exact ⟨hg, Acc.refl K ts, fun _ => rfl, h t (Phantoms.phantom t (.inl ⟨v, text, hm, ht⟩)) hs⟩
  · cases hs

theorem wp_makeLabel [Phantoms c K] {ts : Toks} {Q : TokRef → Toks → Prop} (hv : c.lua52 = true ∨ c.luajit = true)
    (h : ∀ t, K t → is .twoColons t = true → Q t ts) : wp c K (made c.feat .default c!"::") ts Q :=
  wp_made (.inr ⟨rfl, rfl, hv⟩) (made_default _ _ _ _ _ _ (hv.imp (fun h => by exact (has_iff.1 h).1) fun h => by exact (has_iff.1 h).1)) h

theorem wp_basicSymbol' [Phantoms c K] {text : Text} {s : Symbol} {ts : Toks} {Q : TokRef → Toks → Prop}
    (hm : (text, s) ∈ madeTexts) (h : ∀ t, K t → is s t = true → Q t ts) : wp c K (basicSymbol c text) ts Q :=
  wp_made (.inl ⟨rfl, (List.mem_map (f := Prod.fst)).2 ⟨_, hm, rfl⟩⟩) (made_symbol _ hm _ _ _ _ _ _) h

theorem lookup_mem {text : Text} {s : Symbol} : ∀ {l : List (Text × Symbol)}, l.lookup text = some s → (text, s) ∈ l
  | [], h => by cases h
  | (a, b) :: l, h => by
    simp only [List.lookup] at h
    split at h
    · rename_i he; cases h; rw [eq_of_beq he]; exact .head _
    · exact .tail _ (lookup_mem h)

theorem wp_basicSymbol [Phantoms c K] {text : Text} {s : Symbol} {ts : Toks} {Q : TokRef → Toks → Prop}
    (hm : madeTexts.lookup text = some s) (h : ∀ t, K t → is s t = true → Q t ts) : wp c K (basicSymbol c text) ts Q :=
  wp_basicSymbol' (lookup_mem hm) h

theorem wp_requireOr [Phantoms c K] {s : Symbol} {msg : String} {text : Text} {ts : Toks} {Q : TokRef → Toks → Prop}
    (hm : (text, s) ∈ madeTexts)
    (h1 : ∀ t, K t → is s t = true → ts.tail.length + 1 = ts.length → Q t ts.tail) (h2 : ∀ t, K t → is s t = true → Q t ts) :
    wp c K (requireOr c s msg text) ts Q :=
  wp_bind (wp_require (fun t _ hk hi hl => wp_pure (h1 t hk hi hl)) fun _ => wp_basicSymbol' hm h2)

/-! ## Types -/

variable {seps : List Symbol}

/-- The values of a list satisfy `P`, its separators are known tokens and among the given symbols. -/
def PAll (K : TokRef → Prop) (seps : List Symbol) (P : α → Prop) (p : Punctuated α) : Prop :=
  ∀ x ∈ p.pairs, P x.value ∧ ∀ t, x.punctuation = some t → K t ∧ seps.any t.isSymbol = true

theorem PAll.new {P : α → Prop} : PAll K seps P (.new : Punctuated α) := by intro x hx; simp [Punctuated.new] at hx

theorem PAll.push_end {P : α → Prop} {p : Punctuated α} (h : PAll K seps P p) {v : α} (hv : P v) : PAll K seps P (p.push (.end v)) := by
  intro x hx
  simp only [Punctuated.push, List.mem_append, List.mem_singleton] at hx
  rcases hx with hx | rfl
  · exact h x hx
  · exact ⟨hv, by simp [Pair.punctuation]⟩

theorem PAll.push_punct {P : α → Prop} {p : Punctuated α} (h : PAll K seps P p) {v : α} {t : TokRef} (hv : P v) (ht : K t)
    (hs : seps.any t.isSymbol = true) :
    PAll K seps P (p.push (.punctuated v t)) := by
  intro x hx
  simp only [Punctuated.push, List.mem_append, List.mem_singleton] at hx
  rcases hx with hx | rfl
  · exact h x hx
  · exact ⟨hv, by simp only [Pair.punctuation, Option.some.injEq]; rintro _ rfl; exact ⟨ht, hs⟩⟩

theorem PAll.mono {P Q : α → Prop} {p : Punctuated α} (h : PAll K seps P p) (hq : ∀ a, P a → Q a) : PAll K seps Q p :=
  fun x hx => ⟨hq _ (h x hx).1, (h x hx).2⟩

theorem PAll.map {P : α → Prop} {Q : β → Prop} {f : α → β} {p : Punctuated α} (h : PAll K seps P p) (hq : ∀ a, P a → Q (f a)) :
    PAll K seps Q ⟨p.pairs.map (Pair.map f)⟩ := by
  intro x hx
  obtain ⟨y, hy, rfl⟩ := List.mem_map.1 hx
  have := h y hy
  cases y <;> exact ⟨hq _ this.1, this.2⟩

theorem PAll.dropLast {P : α → Prop} {p : Punctuated α} (h : PAll K seps P p) : PAll K seps P ⟨p.pairs.dropLast⟩ :=
  fun x hx => h x (List.dropLast_subset _ hx)

/-- The last pair of a list has no separator. -/
def NoTrail (p : Punctuated α) : Prop := ∀ x, p.pairs.getLast? = some x → x.punctuation = none

theorem wp_dropTrailing' {P : α → Prop} {msg : String} {values : Punctuated α} {ts : Toks} {Q : Punctuated α → Toks → Prop}
    (hv : PAll K seps P values) (h : ∀ p, PAll K seps P p → p.pairs.length = values.pairs.length → NoTrail p → Q p ts) :
    wp c K (dropTrailing msg values) ts Q := by
  unfold dropTrailing
  split
  · rename_i v p rest hpop
    simp only [Punctuated.pop, Prod.mk.injEq] at hpop
    obtain ⟨h1, rfl⟩ := hpop
    have hm := hv _ (List.mem_of_getLast? h1)
    have hne : values.pairs ≠ [] := by rintro h0; rw [h0] at h1; cases h1
    have hpos := List.length_pos_iff.2 hne
    refine wp_bind (wp_tokenError (hm.2 p rfl).1 (wp_pure (h _ (hv.dropLast.push_end hm.1) ?_ ?_)))
    · simp only [Punctuated.push, List.length_append, List.length_dropLast, List.length_cons, List.length_nil]; omega
    intro x hx
    simp [Punctuated.push] at hx
    subst hx; rfl
  · rename_i hpop
    refine wp_pure (h _ hv rfl ?_)
    intro x hx
    cases x with
    | «end» v => rfl
    | punctuated v p => exact absurd (by simp [Punctuated.pop, hx]) (hpop v p ⟨values.pairs.dropLast⟩)

theorem wp_dropTrailing {P : α → Prop} {msg : String} {values : Punctuated α} {ts : Toks} {Q : Punctuated α → Toks → Prop}
    (hv : PAll K seps P values)
    (h : ∀ p, PAll K seps P p → (values.pairs ≠ [] → p.pairs ≠ []) → NoTrail p → Q p ts) : wp c K (dropTrailing msg values) ts Q :=
  wp_dropTrailing' hv fun p h1 h2 h3 =>
    h p h1 (fun h0 => List.length_pos_iff.1 (h2 ▸ List.length_pos_iff.2 h0)) h3

theorem hasTy_cat_node {k : Kind} {a : Cat} {cs : List Node} : HasTy K (.cat a) (.node k cs) ↔ k.cat = some a ∧ HasTys K k.sig cs := by
  simp only [HasTy]

theorem hasTys_cons_cons {a : Ty} {as : List Ty} {n : Node} {cs : List Node} :
    HasTys K (a :: as) (n :: cs) ↔ HasTy K a n ∧ HasTys K as cs := by simp only [HasTys]

theorem hasTys_nil_nil : HasTys K [] [] ↔ True := by simp

theorem hasTy_tok_tok {t : TokRef} : HasTy K .tok (.tok t) ↔ K t := by simp

theorem hasTy_span_span {o e : TokRef} : HasTy K .span (span o e) ↔ K o ∧ K e := by
  simp only [hasTy_span, span, Node.spanOf]
  constructor
  · rintro ⟨_, _, h1, h2, h⟩; cases h; exact ⟨h1, h2⟩
  · rintro ⟨h1, h2⟩; exact ⟨_, _, h1, h2, rfl⟩

@[simp] theorem span_tokens {o e : TokRef} : (span o e).tokens = [o, e] := by simp [span, Node.spanOf]

theorem hasTy_none {a : Ty} : HasTy K (.opt a) .none ↔ True := by simp [hasTy_opt, Node.none]

theorem hasTy_some {a : Ty} {n : Node} : HasTy K (.opt a) (.some n) ↔ HasTy K a n := by simp [hasTy_opt, Node.some]

/-- The value satisfies `P`, if there is one. -/
def OptP (P : α → Prop) (o : Option α) : Prop := ∀ a, o = some a → P a

theorem optP_none {P : α → Prop} : OptP P none ↔ True := by simp [OptP]
theorem optP_some {P : α → Prop} {a : α} : OptP P (some a) ↔ P a := by simp [OptP]

theorem hasTy_optTok {o : Option TokRef} : HasTy K (.opt .tok) (optTok o) ↔ OptP K o := by
  cases o <;> simp [OptP, optTok, hasTy_opt, Node.none, Node.some]

theorem hasTy_optNode {a : Ty} {o : Option Node} : HasTy K (.opt a) (optNode o) ↔ OptP (HasTy K a) o := by
  cases o <;> simp [OptP, optNode, hasTy_opt, Node.none, Node.some]

/-- All values satisfy `P`. -/
def AllP (P : α → Prop) (l : List α) : Prop := ∀ a ∈ l, P a

theorem allP_nil {P : α → Prop} : AllP P [] ↔ True := by simp [AllP]
theorem allP_one {P : α → Prop} {a : α} : AllP P [a] ↔ P a := by simp [AllP]
theorem allP_append {P : α → Prop} {l l' : List α} : AllP P (l ++ l') ↔ AllP P l ∧ AllP P l' := by
  simp only [AllP, List.mem_append]
  exact ⟨fun h => ⟨fun a ha => h a (.inl ha), fun a ha => h a (.inr ha)⟩, fun h a ha => ha.elim (h.1 a) (h.2 a)⟩

theorem hasTy_vec_vec {a : Ty} {ns : List Node} : HasTy K (.vec a) (vec ns) ↔ AllP (HasTy K a) ns := by
  simp [vec, hasTy_vec, AllP]

theorem hasTy_tuple {a b : Ty} {x y : Node} : HasTy K (.tup a b) (.node .tuple [x, y]) ↔ HasTy K a x ∧ HasTy K b y := by
  simp only [hasTy_tup]
  constructor
  · rintro ⟨_, _, h1, h2, h⟩; cases h; exact ⟨h1, h2⟩
  · rintro ⟨h1, h2⟩; exact ⟨_, _, h1, h2, rfl⟩

theorem hasTy_punct_punct {a : Ty} {p : Punctuated Node} : HasTy K (.punct a) (punct p) ↔
    ∀ x ∈ p.pairs, HasTy K a x.value ∧ ∀ t, x.punctuation = some t → K t := by
  simp only [punct, hasTy_punct, Node.node.injEq, true_and]
  constructor
  · rintro ⟨_, h, rfl⟩ x hx
    have := h _ (List.mem_map_of_mem hx)
    cases x with
    | «end» v =>
      rcases hasTy_pair.1 this with ⟨_, h, e⟩ | ⟨_, _, _, _, e⟩
      · cases e; exact ⟨h, by simp [Pair.punctuation]⟩
      · cases e
    | punctuated v p =>
      rcases hasTy_pair.1 this with ⟨_, h, e⟩ | ⟨_, _, h, h', e⟩
      · cases e
      · cases e; exact ⟨h, by simpa [Pair.punctuation] using h'⟩
  · intro h
    refine ⟨_, ?_, rfl⟩
    intro n hn
    obtain ⟨x, hx, rfl⟩ := List.mem_map.1 hn
    have := h x hx
    cases x with
    | «end» v => exact hasTy_pair.2 (.inl ⟨_, this.1, rfl⟩)
    | punctuated v p => exact hasTy_pair.2 (.inr ⟨_, _, this.1, this.2 p rfl, rfl⟩)

/-! ## Types, with nodes that are lawful -/

/-- The construct exists in one of the active versions: `available`, kind by kind. -/
def _root_.FM.Kind.gate (c : Cfg) : Kind → Prop
  | .stmtGoto | .stmtLabel => (c.lua52 || c.luajit) = true
  | .attribute => (c.lua54 || c.cfxlua) = true
  | .fieldSet => c.feat.cfxlua = true
  | .luauAttr => c.feat.luau = true
  | .stmtCompound => (c.luau || c.cfxlua) = true
  | .binOp o => available c (.binOp o) = true
  | .unOp o => available c (.unOp o) = true
  | .tyVariadicPack => False
  | .lastContinue | .exprIf | .exprInterp | .exprAssertion | .stmtExportedType | .stmtType | .stmtExportedTypeFunction | .stmtTypeFunction | .suffixTypeInst | .typeInst | .genericDecl | .typeSpec => c.luau = true
  | .absent | .present | .vec | .tuple | .punct | .pairEnd | .pairPunct | .span | .block | .lastBreak | .lastReturn |
  .ret | .fieldExprKey | .fieldNameKey | .fieldNoKey | .tableCtor | .anonFunc | .exprBinary | .exprParens | .exprUnary
  | .exprFunction | .exprCall | .exprTable | .exprNumber | .exprString | .exprSymbol | .exprVar | .stmtAssignment |
  .stmtDo | .stmtCall | .stmtFunction | .stmtGenericFor | .stmtIf | .stmtLocalAssignment | .stmtLocalFunction |
  .stmtNumericFor | .stmtRepeat | .stmtWhile | .prefixExpr | .prefixName | .indexBrackets | .indexDot | .argsParens |
  .argsString | .argsTable | .numericFor | .genericFor | .ifBlock | .elseIf | .whileBlock | .repeatBlock | .methodCall
  | .callAnonymous | .callMethod | .funcBody | .paramEllipsis | .paramName | .suffixCall | .suffixIndex | .varExpr |
  .varExpression | .varName | .assignment | .localFunction | .localAssignment | .doBlock | .functionCall |
  .functionName | .functionDecl | .gotoStmt | .label | .compoundAssignment | .compoundOp _ | .tyArray | .tyBasic |
  .tyString | .tyBoolean | .tyCallback | .tyGeneric | .tyGenericPack | .tyIntersection | .tyModule | .tyOptional |
  .tyTable | .tyTypeof | .tyTuple | .tyUnion | .tyVariadic | .typeUnion | .typeIntersection | .idxBasic | .idxGeneric
  | .typeField | .keyName | .keyIndex | .typeAssertion | .typeDecl | .genericName | .genericVariadic |
  .genericDeclParam | .typeArg | .exportedTypeDecl | .typeFunction | .exportedTypeFunction | .ifExpr | .elseIfExpr |
  .interpString | .interpSegment => True

theorem gate_available {k : Kind} (h : k.gate c) : available c k = true := by
  cases k <;> first | exact h | rfl | exact h.elim

/-- What holds of every node of every tree the parser returns: the construct exists in one of the active versions, lists of
annotations are not longer than the lists of names, and empty if their feature is not compiled; its tokens are those of the
production. -/
def lawful (c : Cfg) (k : Kind) (cs : List Node) : Prop :=
  k.gate c ∧ (annotationsFit k cs ∧ annotationsCompiled c.feat k cs) ∧ tokensNamed c.feat k cs

/-- The node has the type, and all nodes in it are lawful. -/
def WellTy (c : Cfg) (K : TokRef → Prop) (a : Ty) (n : Node) : Prop := HasTy K a n ∧ n.Every (lawful c)

/-- The nodes have the types, and all nodes in them are lawful. -/
def WellTys (c : Cfg) (K : TokRef → Prop) (as : List Ty) (cs : List Node) : Prop :=
  HasTys K as cs ∧ Node.Every.everys (lawful c) cs

/-- Nodes of other types have no lists of annotations. -/
theorem annotated_other {k : Kind} {a : Cat} {cs : List Node} (h : k.cat = some a)
    (ha : ¬ (a = .funcBody ∨ a = .genericFor ∨ a = .localAssignment)) :
    annotationsFit k cs ∧ annotationsCompiled c.feat k cs := by
  cases k <;> first | exact ⟨trivial, trivial⟩ | (cases h; exact absurd (by simp) ha)

theorem lawful_container {k : Kind} {cs : List Node} (h : k.cat = none) : lawful c k cs := by
  cases k <;> first | exact ⟨trivial, ⟨trivial, trivial⟩, fun h => absurd rfl h⟩ | cases h

/-- The node has the type and the tokens of the part of a production. -/
def In (c : Cfg) (K : TokRef → Prop) (a : Ty) (p : Part) (n : Node) : Prop := WellTy c K a n ∧ InField p n

/-- The nodes have the types and the tokens of the parts of a production. -/
def Ins (c : Cfg) (K : TokRef → Prop) (as : List Ty) (ps : List Part) (cs : List Node) : Prop := WellTys c K as cs ∧ InFields ps cs

theorem wellTy_cat_node {k : Kind} {a : Cat} {cs : List Node} : WellTy c K (.cat a) (.node k cs) ↔
    k.cat = some a ∧ k.gate c ∧ ((a = .funcBody ∨ a = .genericFor ∨ a = .localAssignment) →
      annotationsFit k cs ∧ annotationsCompiled c.feat k cs) ∧ Ins c K k.sig (recovered c.feat k) cs := by
  simp only [WellTy, WellTys, Ins, hasTy_cat_node, Node.Every]
  constructor
  · rintro ⟨⟨h1, h2⟩, h3, h4⟩; exact ⟨h1, h3.1, fun _ => h3.2.1, ⟨h2, h4⟩, h3.2.2 (by rw [h1]; nofun)⟩
  · rintro ⟨h1, h5, h3, ⟨h2, h4⟩, h6⟩
    exact ⟨⟨h1, h2⟩, ⟨h5, Classical.byCases h3 (annotated_other h1), fun _ => h6⟩, h4⟩

theorem wellTys_cons_cons {a : Ty} {as : List Ty} {n : Node} {cs : List Node} :
    WellTys c K (a :: as) (n :: cs) ↔ WellTy c K a n ∧ WellTys c K as cs := by
  simp only [WellTys, WellTy, hasTys_cons_cons, Node.Every.everys]
  exact ⟨fun h => ⟨⟨h.1.1, h.2.1⟩, h.1.2, h.2.2⟩, fun h => ⟨⟨h.1.1, h.2.1⟩, h.1.2, h.2.2⟩⟩

theorem wellTys_nil_nil : WellTys c K [] [] ↔ True := by simp [WellTys, Node.Every.everys]

theorem wellTy_tok_tok {t : TokRef} : WellTy c K .tok (.tok t) ↔ K t := by simp [WellTy, Node.Every]

theorem wellTy_span_span {o e : TokRef} : WellTy c K .span (span o e) ↔ K o ∧ K e := by
  simp only [WellTy, hasTy_span_span, and_iff_left_iff_imp]
  intro _
  simp only [span, Node.spanOf, Node.Every, Node.Every.everys, and_true]
  exact lawful_container rfl

theorem wellTy_none {a : Ty} : WellTy c K (.opt a) .none ↔ True :=
  iff_true_intro ⟨hasTy_none.2 trivial, lawful_container (k := .absent) rfl, trivial⟩

theorem wellTy_some {a : Ty} {n : Node} : WellTy c K (.opt a) (.some n) ↔ WellTy c K a n :=
  ⟨fun h => ⟨hasTy_some.1 h.1, h.2.2.1⟩, fun h => ⟨hasTy_some.2 h.1, lawful_container (k := .present) rfl, h.2, trivial⟩⟩

theorem wellTy_optTok {o : Option TokRef} : WellTy c K (.opt .tok) (optTok o) ↔ OptP K o := by
  cases o with
  | none => exact wellTy_none.trans optP_none.symm
  | some t => exact wellTy_some.trans (wellTy_tok_tok.trans optP_some.symm)

theorem wellTy_optNode {a : Ty} {o : Option Node} : WellTy c K (.opt a) (optNode o) ↔ OptP (WellTy c K a) o := by
  cases o with
  | none => exact wellTy_none.trans optP_none.symm
  | some t => exact wellTy_some.trans optP_some.symm

theorem everys_all {p : Kind → List Node → Prop} : ∀ {ns : List Node}, Node.Every.everys p ns ↔ ∀ n ∈ ns, n.Every p
  | [] => by simp [Node.Every.everys]
  | n :: ns => by simp [Node.Every.everys, everys_all]

theorem wellTy_vec_vec {a : Ty} {ns : List Node} : WellTy c K (.vec a) (vec ns) ↔ AllP (WellTy c K a) ns :=
  ⟨fun h n hn => ⟨hasTy_vec_vec.1 h.1 n hn, everys_all.1 h.2.2 n hn⟩,
    fun h => ⟨hasTy_vec_vec.2 fun n hn => (h n hn).1, lawful_container (k := .vec) rfl, everys_all.2 fun n hn => (h n hn).2⟩⟩

theorem wellTy_tuple {a b : Ty} {x y : Node} :
    WellTy c K (.tup a b) (.node .tuple [x, y]) ↔ WellTy c K a x ∧ WellTy c K b y := by
  simp only [WellTy, hasTy_tuple, Node.Every, Node.Every.everys, and_true]
  exact ⟨fun h => ⟨⟨h.1.1, h.2.2.1⟩, h.1.2, h.2.2.2⟩, fun h => ⟨⟨h.1.1, h.2.1⟩, lawful_container rfl, h.1.2, h.2.2⟩⟩

theorem wellTy_punct_punct {a : Ty} {p : Punctuated Node} : WellTy c K (.punct a) (punct p) ↔
    ∀ x ∈ p.pairs, WellTy c K a x.value ∧ ∀ t, x.punctuation = some t → K t := by
  constructor
  · intro h x hx
    have h1 := hasTy_punct_punct.1 h.1 x hx
    have h2 := everys_all.1 h.2.2 _ (List.mem_map_of_mem hx)
    refine ⟨⟨h1.1, ?_⟩, h1.2⟩
    cases x with
    | «end» v => exact h2.2.1
    | punctuated v t => exact h2.2.1
  · intro h
    refine ⟨hasTy_punct_punct.2 fun x hx => ⟨(h x hx).1.1, (h x hx).2⟩, lawful_container (k := .punct) rfl, everys_all.2 fun n hn => ?_⟩
    obtain ⟨x, hx, rfl⟩ := List.mem_map.1 hn
    have := (h x hx).1.2
    cases x with
    | «end» v => exact ⟨lawful_container (k := .pairEnd) rfl, this, trivial⟩
    | punctuated v t => exact ⟨lawful_container (k := .pairPunct) rfl, this, trivial, trivial⟩

/-! ## Tokens in the fields of nodes -/

theorem ins_cons {a : Ty} {as : List Ty} {p : Part} {ps : List Part} {n : Node} {cs : List Node} :
    Ins c K (a :: as) (p :: ps) (n :: cs) ↔ In c K a p n ∧ Ins c K as ps cs := by
  simp only [Ins, In, wellTys_cons_cons, InFields]
  exact ⟨fun h => ⟨⟨h.1.1, h.2.1⟩, h.1.2, h.2.2⟩, fun h => ⟨⟨h.1.1, h.2.1⟩, h.1.2, h.2.2⟩⟩

theorem ins_nil : Ins c K [] [] [] ↔ True := iff_true_intro ⟨wellTys_nil_nil.2 trivial, by simp [InFields]⟩

theorem in_tok {x : Term} {t : TokRef} : In c K .tok (.tok x) (.tok t) ↔ K t ∧ x.Is t := by
  simp [In, wellTy_tok_tok, InField]

theorem is_sym {ss : List Symbol} {t : TokRef} : (Term.sym ss).Is t ↔ ss.any t.isSymbol = true := by
  simp [Term.Is, TokRef.isSymbol]

theorem is_sym₁ {s : Symbol} {t : TokRef} : (Term.sym [s]).Is t ↔ is s t = true := by
  simp [is_sym, is]

theorem is_sym₂ {a b : Symbol} {t : TokRef} : (Term.sym [a, b]).Is t ↔ (is a t || is b t) = true := by
  simp [is_sym, is]

theorem is_name {t : TokRef} : Term.name.Is t ↔ t.isIdent = true := by
  simp only [Term.Is, TokRef.isIdent]
  cases t.token.type <;> simp [TokenType.kind]

theorem is_nameOrNil {t : TokRef} : Term.nameOrNil.Is t ↔ t.isIdent = true ∨ is .kNil t = true := by
  have h := is_name (t := t)
  simp only [Term.Is] at h ⊢
  simp [h, is, TokRef.isSymbol]

theorem is_word {ws : List Text} {t : TokRef} : (Term.word ws).Is t ↔ ∃ w ∈ ws, isNamed w t = true := by
  simp [Term.Is, isNamed]

theorem is_word₁ {w : Text} {t : TokRef} : (Term.word [w]).Is t ↔ isNamed w t = true := by
  simp [is_word]

theorem is_word₂ {v w : Text} {t : TokRef} : (Term.word [v, w]).Is t ↔ ∃ x ∈ [v, w], isNamed x t = true := is_word

theorem is_string {t : TokRef} : Term.string.Is t ↔ t.isString = true := by
  simp [Term.Is, TokRef.isString]

theorem is_number {t : TokRef} : Term.number.Is t ↔ t.isNumber = true := by
  simp [Term.Is, TokRef.isNumber]

theorem is_interp {t : TokRef} : Term.interp.Is t ↔ (interpKind t).isSome = true := by
  simp only [Term.Is, interpKind]
  cases t.token.type <;> simp [TokenType.kind]

theorem in_span {o e : Symbol} {a b : TokRef} :
    In c K .span (.span o e) (span a b) ↔ (K a ∧ is o a = true) ∧ K b ∧ is e b = true := by
  unfold In
  rw [wellTy_span_span]
  simp only [InField, is_sym₁, span, Node.spanOf, Node.node.injEq, List.cons.injEq, Node.tok.injEq, true_and, and_true]
  constructor
  · rintro ⟨⟨h1, h2⟩, _, _, ⟨rfl, rfl⟩, h3, h4⟩; exact ⟨⟨h1, h3⟩, h2, h4⟩
  · rintro ⟨⟨h1, h3⟩, h2, h4⟩; exact ⟨⟨h1, h2⟩, _, _, ⟨rfl, rfl⟩, h3, h4⟩

theorem in_cat {a : Ty} {b : Cat} : In c K a (.cat b) = WellTy c K a := by
  funext n; simp [In, InField]

theorem in_type {a : Ty} : In c K a .type = WellTy c K a := by
  funext n; simp [In, InField]

theorem in_opt_cat {a : Ty} {b : Cat} : In c K a (.opt (.cat b)) = WellTy c K a := by
  funext n; simp [In, InField]

theorem in_many_cat {a : Ty} {b : Cat} : In c K a (.many (.cat b)) = WellTy c K a := by
  funext n; simp [In, InField]

theorem in_many_opt_cat {a : Ty} {b : Cat} : In c K a (.many (.opt (.cat b))) = WellTy c K a := by
  funext n; simp [In, InField]

theorem in_opt_some_cat {a : Ty} {b : Cat} : In c K a (.opt (.some (.cat b))) = WellTy c K a := by
  funext n; simp [In, InField]

theorem in_none {a : Ty} {p : Part} : In c K (.opt a) (.opt p) .none ↔ True :=
  iff_true_intro ⟨wellTy_none.2 trivial, by simp [InField, Node.none, Node.children]⟩

theorem in_some {a : Ty} {p : Part} {n : Node} : In c K (.opt a) (.opt p) (.some n) ↔ In c K a p n := by
  unfold In
  rw [wellTy_some]
  simp [InField, Node.some, Node.children]

theorem in_optTok {x : Term} {o : Option TokRef} :
    In c K (.opt .tok) (.opt (.tok x)) (optTok o) ↔ OptP (fun t => K t ∧ x.Is t) o := by
  cases o with
  | none => exact in_none.trans optP_none.symm
  | some t => exact in_some.trans (in_tok.trans (optP_some (P := fun t => K t ∧ x.Is t)).symm)

theorem in_optNode {a : Ty} {p : Part} {o : Option Node} : In c K (.opt a) (.opt p) (optNode o) ↔ OptP (In c K a p) o := by
  cases o with
  | none => exact in_none.trans optP_none.symm
  | some t => exact in_some.trans optP_some.symm

theorem in_vec {a : Ty} {p : Part} {ns : List Node} : In c K (.vec a) (.many p) (vec ns) ↔ AllP (In c K a p) ns := by
  unfold In
  rw [wellTy_vec_vec]
  simp only [InField, vec, Node.children, AllP]
  exact ⟨fun h n hn => ⟨h.1 n hn, h.2 n hn⟩, fun h => ⟨fun n hn => (h n hn).1, fun n hn => (h n hn).2⟩⟩

theorem in_tuple {a b : Ty} {p q : Part} {x y : Node} :
    In c K (.tup a b) (.pair p q) (.node .tuple [x, y]) ↔ In c K a p x ∧ In c K b q y := by
  simp only [In, wellTy_tuple, InField, Node.node.injEq, List.cons.injEq, true_and, and_true]
  constructor
  · rintro ⟨⟨h1, h2⟩, _, _, ⟨rfl, rfl⟩, h3, h4⟩; exact ⟨⟨h1, h3⟩, h2, h4⟩
  · rintro ⟨⟨h1, h3⟩, h2, h4⟩; exact ⟨⟨h1, h2⟩, _, _, ⟨rfl, rfl⟩, h3, h4⟩

theorem in_punct {a : Ty} {p : Part} {style : Spec.Style} {l : Punctuated Node} :
    In c K (.punct a) (.list p seps style) (punct l) ↔ PAll K seps (In c K a p) l := by
  unfold In
  rw [wellTy_punct_punct]
  simp only [InField, punct, Node.children, List.mem_map, forall_exists_index, and_imp,
    forall_apply_eq_imp_iff₂, PAll, In]
  constructor
  · rintro ⟨h1, h2⟩ x hx
    have h3 := h1 x hx
    have h4 := h2 x hx
    cases x with
    | «end» v => exact ⟨⟨h3.1, h4.1 _ rfl⟩, nofun⟩
    | punctuated v t =>
      refine ⟨⟨h3.1, h4.1 _ rfl⟩, ?_⟩
      rintro _ ⟨rfl⟩
      obtain ⟨_, ⟨rfl⟩, h5⟩ := h4.2 (.tok t) (by simp [pairNode, Node.children])
      exact ⟨h3.2 _ rfl, is_sym.1 h5⟩
  · intro h
    refine ⟨fun x hx => ⟨(h x hx).1.1, fun t ht => ((h x hx).2 t ht).1⟩, fun x hx => ?_⟩
    have h1 := h x hx
    cases x with
    | «end» v =>
      refine ⟨?_, by simp [pairNode, Node.children]⟩
      rintro _ ⟨rfl⟩; exact h1.1.2
    | punctuated v t =>
      refine ⟨?_, ?_⟩
      · rintro _ ⟨rfl⟩; exact h1.1.2
      · intro m hm
        simp only [pairNode, Node.children, List.tail_cons, List.mem_singleton] at hm
        exact ⟨t, hm, is_sym.2 (h1.2 t rfl).2⟩

/-- The parts of a block are well typed. -/
def BlkTy (c : Cfg) (K : TokRef → Prop) (b : Blk) : Prop :=
  (∀ s ∈ b.stmts, WellTy c K (.cat .stmt) s.1 ∧ OptP (fun t => K t ∧ is .semicolon t = true) s.2) ∧
  ∀ s, b.last = some s → WellTy c K (.cat .lastStmt) s.1 ∧ OptP (fun t => K t ∧ is .semicolon t = true) s.2

theorem BlkTy.empty : BlkTy c K .empty := ⟨by simp [Blk.empty], by simp [Blk.empty]⟩

theorem wellTy_blk {b : Blk} : WellTy c K (.cat .block) b.node ↔ BlkTy c K b := by
  unfold Blk.node
  rw [wellTy_cat_node]
  simp only [Kind.cat, Kind.sig, Kind.gate, reduceCtorEq, or_self, false_implies, recovered, production, ins_cons, ins_nil, in_vec, in_optNode, true_and, and_true, BlkTy]
  refine and_congr ?_ ?_
  · simp only [AllP, List.mem_map, forall_exists_index, and_imp, forall_apply_eq_imp_iff₂, stmtNode, in_tuple, in_optTok, in_cat, is_sym₁]
  · simp only [OptP, Option.map_eq_some_iff, forall_exists_index, and_imp, forall_apply_eq_imp_iff₂, stmtNode, in_tuple, in_optTok, in_cat, is_sym₁]

end FM.Parser
