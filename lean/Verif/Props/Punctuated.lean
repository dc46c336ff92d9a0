import Verif.Model.Punctuated
import Verif.Spec.Separated

/-!
# Punctuated sequences: C33, C34
-/

namespace FM.Props
open FM FM.Spec

variable {α : Type}

/-- What a caller sees of a punctuated sequence through `into_pairs` and `into_tuple`. -/
def contents (p : Punctuated α) : Sep α := p.pairs.map Pair.intoTuple

/-- The sequence of edits applied through the API; `none` once a call panicked. -/
def applyEdits : Punctuated α → List (Edit α) → Option (Punctuated α)
  | p, [] => some p
  | p, .push v s :: es => applyEdits (p.push (.new v s)) es
  | p, .pop :: es => applyEdits p.pop.2 es
  | p, .pushPunctuated v s :: es =>
    match p.pushPunctuated v s with
    | .returned () p => applyEdits p es
    | .panicked _ => none

/-- All edits of a history are legal, starting from the list `xs`. -/
def AllLegal : Sep α → List (Edit α) → Prop
  | _, [] => True
  | xs, e :: es => Legal xs e ∧ AllLegal (edit xs e) es

theorem intoTuple_new (v : α) (s : Option TokRef) : (Pair.new v s).intoTuple = (v, s) := by
  cases s <;> rfl

theorem contents_injective {p q : Punctuated α} (h : contents p = contents q) : p = q := by
  obtain ⟨ps⟩ := p
  obtain ⟨qs⟩ := q
  congr 1
  simp only [contents] at h
  induction ps generalizing qs with
  | nil => cases qs <;> simp_all
  | cons x xs ih =>
    cases qs with
    | nil => simp at h
    | cons y ys =>
      simp only [List.map_cons, List.cons.injEq] at h
      rw [ih ys h.2]
      congr 1
      have := h.1
      cases x <;> cases y <;> simp_all [Pair.intoTuple]

theorem snoc_cases {β : Type} (l : List β) : l = [] ∨ ∃ init x, l = init ++ [x] := by
  by_cases h : l = []
  · exact .inl h
  · exact .inr ⟨_, _, (List.dropLast_concat_getLast h).symm⟩

/-- **C34.** `push_punctuated` panics exactly when the sequence is empty or its last value already has
punctuation, and a panic leaves the sequence as it was; otherwise the previous last value gets the
punctuation and the new value is appended without one. -/
theorem push_punctuated_spec (p : Punctuated α) (v : α) (s : TokRef) :
    (p.pushPunctuated v s = .panicked p ∧ ¬ Legal (contents p) (.pushPunctuated v s)) ∨
    ∃ q, p.pushPunctuated v s = .returned () q ∧ Legal (contents p) (.pushPunctuated v s) ∧
      contents q = edit (contents p) (.pushPunctuated v s) := by
  obtain ⟨ps⟩ := p
  rcases snoc_cases ps with rfl | ⟨init, x, rfl⟩
  · left
    simp [Punctuated.pushPunctuated, Punctuated.pop, Legal, contents]
  · cases x with
    | «end» w =>
      right
      refine ⟨⟨init ++ [.punctuated w s, .end v]⟩, ?_, ⟨init.map Pair.intoTuple, w, ?_⟩, ?_⟩ <;>
        simp [Punctuated.pushPunctuated, Punctuated.pop, Punctuated.push, Pair.punctuation, Pair.intoValue,
          Pair.intoTuple, Pair.new, contents, edit]
    | punctuated w t =>
      left
      constructor
      · simp [Punctuated.pushPunctuated, Punctuated.pop, Punctuated.push, Pair.punctuation]
      · rintro ⟨ys, u, h⟩
        simp only [contents, List.map_append, List.map_cons, List.map_nil] at h
        have := List.append_inj_right' h rfl
        simp [Pair.intoTuple] at this

/-- A sequence with one value satisfies the second case, an empty one the first. -/
example : Legal (contents (⟨[.end 1]⟩ : Punctuated Nat)) (.pushPunctuated 2 ⟨[], ⟨⟨0, 1, 1⟩, ⟨1, 1, 2⟩, .symbol .comma⟩, []⟩) :=
  ⟨[], 1, rfl⟩

/-- **C33.** Under any sequence of calls a punctuated sequence behaves like a list of values with
separators: the history succeeds exactly when all its calls are legal, and then holds the list obtained by
the same edits on lists. -/
theorem punctuated_history (es : List (Edit α)) (p : Punctuated α) :
    (AllLegal (contents p) es ∧ ∃ q, applyEdits p es = some q ∧ contents q = es.foldl edit (contents p)) ∨
    (¬ AllLegal (contents p) es ∧ applyEdits p es = none) := by
  induction es generalizing p with
  | nil => exact .inl ⟨trivial, p, rfl, rfl⟩
  | cons e es ih =>
    cases e with
    | push v s =>
      have hc : contents (p.push (.new v s)) = edit (contents p) (.push v s) := by
        simp [contents, Punctuated.push, edit, intoTuple_new]
      have := ih (p.push (.new v s))
      rw [hc] at this
      simpa [AllLegal, Legal, applyEdits] using this
    | pop =>
      have hc : contents p.pop.2 = edit (contents p) .pop := by
        simp [contents, Punctuated.pop, edit]
      have := ih p.pop.2
      rw [hc] at this
      simpa [AllLegal, Legal, applyEdits] using this
    | pushPunctuated v s =>
      rcases push_punctuated_spec p v s with ⟨h1, h2⟩ | ⟨q, h1, h2, h3⟩
      · exact .inr ⟨fun h => h2 h.1, by simp [applyEdits, h1]⟩
      · have := ih q
        rw [h3] at this
        simpa [AllLegal, h2, applyEdits, h1] using this

/-- A legal history. -/
example : AllLegal ([] : Sep Nat) [.push 1 none, .pushPunctuated 2 ⟨[], ⟨⟨0, 1, 1⟩, ⟨1, 1, 2⟩, .symbol .comma⟩, []⟩, .pop] :=
  ⟨trivial, ⟨[], 1, rfl⟩, trivial, trivial⟩

theorem collectIter_eq (ps : List (Pair α)) : Punctuated.collectIter ps = ps.map (fun p => p.intoTuple.1) := by
  induction ps with
  | nil => rfl
  | cons p ps ih => cases p <;> simp [Punctuated.collectIter, Punctuated.iterNext, ih, Pair.value, Pair.intoTuple]

theorem collectIntoIter_eq (ps : List (Pair α)) :
    Punctuated.collectIntoIter ps = ps.map (fun p => p.intoTuple.1) := by
  induction ps with
  | nil => rfl
  | cons p ps ih => simp [Punctuated.collectIntoIter, Punctuated.intoIterNext, ih, Pair.intoValue]

/-- **C33.** All observers agree with the list of values: length, emptiness, first, last and both ways of
iterating. -/
theorem punctuated_observers (p : Punctuated α) :
    p.len = (contents p).length ∧
    (p.isEmpty = true ↔ contents p = []) ∧
    p.first.map Pair.intoTuple = (contents p).head? ∧
    p.last.map Pair.intoTuple = (contents p).getLast? ∧
    Punctuated.collectIter p.pairs = (contents p).map Prod.fst ∧
    Punctuated.collectIntoIter p.pairs = (contents p).map Prod.fst ∧
    p.pop.1.map Pair.intoTuple = (contents p).getLast? := by
  refine ⟨by simp [Punctuated.len, contents], ?_, ?_, ?_, ?_, ?_, ?_⟩
  · simp [Punctuated.isEmpty, Punctuated.len, contents]
  · simp [Punctuated.first, contents]
  · simp [Punctuated.last, contents]
  · simp [collectIter_eq, contents]
  · simp [collectIntoIter_eq, contents]
  · simp [Punctuated.pop, contents]

/-- **C33.** `pop` undoes `push`. -/
theorem pop_push (p : Punctuated α) (pair : Pair α) : (p.push pair).pop = (some pair, p) := by
  simp [Punctuated.push, Punctuated.pop]

/-- **C33.** Updating through `iter_mut` changes the values and keeps the separators. -/
theorem forEachMut_contents (f : α → α) (p : Punctuated α) :
    contents (p.forEachMut f) = (contents p).map (fun x => (f x.1, x.2)) := by
  simp only [contents, Punctuated.forEachMut, List.map_map]
  congr 1
  funext x
  cases x <;> rfl

/-- The observers of one pair agree with each other. -/
theorem pair_observers {β : Type} (x : Pair α) (f : α → β) :
    x.value = x.intoTuple.1 ∧ x.intoValue = x.intoTuple.1 ∧ x.punctuation = x.intoTuple.2 ∧
    Pair.new x.value x.punctuation = x ∧ (x.map f).intoTuple = (f x.intoTuple.1, x.intoTuple.2) := by
  cases x <;> simp [Pair.value, Pair.intoTuple, Pair.intoValue, Pair.punctuation, Pair.new, Pair.map]

theorem punctual_snoc {xs : Sep α} {v w : α} {s : TokRef} (h : Punctual (xs ++ [(v, none)])) :
    Punctual (xs ++ [(v, some s), (w, none)]) := by
  induction xs with
  | nil => simp [Punctual]
  | cons x xs ih =>
    cases xs with
    | nil =>
      simp only [List.cons_append, List.nil_append, Punctual] at h ⊢
      exact ⟨h.1, by simp⟩
    | cons y ys =>
      simp only [List.cons_append, Punctual] at h ⊢
      exact ⟨h.1, ih h.2⟩

/-- **C33.** A sequence built from one value by legal `push_punctuated` calls has a separator after every
value except the last, and none after the last. -/
theorem push_punctuated_punctual {p q : Punctuated α} {v : α} {s : TokRef} (h : Punctual (contents p))
    (hq : p.pushPunctuated v s = .returned () q) : Punctual (contents q) := by
  rcases push_punctuated_spec p v s with ⟨h1, _⟩ | ⟨q', h1, ⟨ys, w, h2⟩, h3⟩
  · simp [h1] at hq
  · rw [h1] at hq
    cases hq
    rw [h3, h2]
    rw [h2] at h
    simp only [edit, List.getLast?_append, List.getLast?_singleton, Option.some_or, List.dropLast_concat]
    exact punctual_snoc h

example : Punctual (contents (⟨[.end 1]⟩ : Punctuated Nat)) := rfl

/-- **C33.** A sequence prints its values, each followed by its separator. -/
theorem punctuated_display (show_ : α → Text) (p : Punctuated α) :
    p.display show_ = (contents p).flatMap fun x => show_ x.1 ++ (x.2.map TokRef.display).getD [] := by
  simp only [Punctuated.display, contents, List.flatMap_map]
  congr 1
  funext x
  cases x <;> simp [Pair.display, Pair.intoTuple]

end FM.Props
