import Verif.Proofs.Parser.CleanStmt
import Verif.Proofs.Parser.Grammar
import Verif.Proofs.Parser.Nonempty

/-! Helper lemmas: runs of parser functions on given tokens that find a given value. -/

namespace FM.Parser.Forward
open FM.Spec FM.Parser FM.Parser.Clean

variable {c : Cfg} {α β : Type}

/-- On the tokens `l`, `p` returns `a`, leaves `l'` and records nothing (unless a loop reaches its bound). -/
def runs (p : M α) (l : List TokRef) (a : α) (l' : List TokRef) : Prop :=
  p (l.map .ok) = .diverge ∨ p (l.map .ok) = .ok ⟨a, l'.map .ok, [], 0⟩

theorem runs_pure {a : α} {l : List TokRef} : runs (pure a) l a l := .inr rfl

theorem runs_diverge {a : α} {l l' : List TokRef} : runs (diverge : M α) l a l' := .inl rfl

theorem bind_eq {p : M α} {f : α → M β} {l l1 : List TokRef} {a : α} (h : p (l.map .ok) = .ok ⟨a, l1.map .ok, [], 0⟩) :
    (p >>= f) (l.map .ok) = f a (l1.map .ok) := by
  have hb : (p >>= f) (l.map .ok) = M.bind p f (l.map .ok) := rfl
  rw [hb, M.bind, h]
  dsimp only [Run.andThen]
  split
  · rename_i r hr
    rw [hr]; simp
  · rename_i hr
    rw [hr]
  · rename_i hr
    rw [hr]

theorem runs_bind {p : M α} {f : α → M β} {l l1 l2 : List TokRef} {a : α} {b : β} (h : runs p l a l1) (h' : runs (f a) l1 b l2) :
    runs (p >>= f) l b l2 := by
  rcases h with h | h
  · left
    have hb : (p >>= f) (l.map .ok) = M.bind p f (l.map .ok) := rfl
    rw [hb, M.bind, h]
  · unfold runs
    rw [bind_eq h]
    exact h'

/-- A step that changes nothing but the remaining tokens. -/
theorem runs_step {p : M α} {f : α → M β} {l l1 l2 : List TokRef} {a : α} {b : β} (h : p (l.map .ok) = .ok ⟨a, l1.map .ok, [], 0⟩) :
    runs (p >>= f) l b l2 = runs (f a) l1 b l2 := by
  unfold runs
  rw [bind_eq h]

/-- The last call of a function. -/
theorem runs_tail {p : M α} {f : α → β} {l l1 : List TokRef} {a : α} {b : β} (h : runs p l a l1) (hb : f a = b) :
    runs (p >>= fun x => pure (f x)) l b l1 := runs_bind h (hb ▸ runs_pure)

section
variable {t u : TokRef} {l l' : List TokRef} {b : β} {P : TokRef → Bool} {s : Symbol} {m : String}

@[simp] theorem current_bind {f : Option TokRef → M β} : runs (current >>= f) (t :: l) b l' = runs (f (some t)) (t :: l) b l' :=
  runs_step rfl

@[simp] theorem take_bind {f : TokRef → M β} : runs (take >>= f) (t :: l) b l' = runs (f t) l b l' := runs_step rfl

@[simp] theorem fuel_bind {f : Nat → M β} : runs (fuel >>= f) l b l' = runs (f (l.length + 1)) l b l' := by
  refine runs_step (l1 := l) (a := l.length + 1) ?_
  simp [fuel]

theorem takeIf_eq : takeIf P ((t :: l).map .ok) = if P t then .ok ⟨.took t, l.map .ok, [], 0⟩ else .ok ⟨.other t, (t :: l).map .ok, [], 0⟩ := by
  unfold takeIf
  rw [bind_eq (l1 := t :: l) (a := some t) rfl]
  dsimp only
  split
  · rfl
  · rfl

theorem takeIf_pos (h : P t = true) {f : Took → M β} : runs (takeIf P >>= f) (t :: l) b l' = runs (f (.took t)) l b l' :=
  runs_step (by rw [takeIf_eq, if_pos h])
theorem takeIf_neg (h : P t = false) {f : Took → M β} : runs (takeIf P >>= f) (t :: l) b l' = runs (f (.other t)) (t :: l) b l' :=
  runs_step (by rw [takeIf_eq, if_neg (by simp [h])])

theorem consumeIf_eq : consumeIf s ((t :: l).map .ok) = if is s t then .ok ⟨some t, l.map .ok, [], 0⟩ else .ok ⟨none, (t :: l).map .ok, [], 0⟩ := by
  unfold consumeIf
  split
  · rename_i h; rw [bind_eq (l1 := l) (a := .took t) (by rw [takeIf_eq, if_pos h])]; rfl
  · rename_i h; rw [bind_eq (l1 := t :: l) (a := .other t) (by rw [takeIf_eq, if_neg h])]; rfl

theorem consumeIf_pos (h : is s t = true) {f : Option TokRef → M β} : runs (consumeIf s >>= f) (t :: l) b l' = runs (f (some t)) l b l' :=
  runs_step (by rw [consumeIf_eq, if_pos h])
theorem consumeIf_neg (h : is s t = false) {f : Option TokRef → M β} : runs (consumeIf s >>= f) (t :: l) b l' = runs (f none) (t :: l) b l' :=
  runs_step (by rw [consumeIf_eq, if_neg (by simp [h])])

theorem consumeIfAny_eq {ss : List Symbol} : consumeIfAny ss ((t :: l).map .ok) =
    if ss.any t.isSymbol then .ok ⟨some t, l.map .ok, [], 0⟩ else .ok ⟨none, (t :: l).map .ok, [], 0⟩ := by
  unfold consumeIfAny
  split
  · rename_i h; rw [bind_eq (l1 := l) (a := .took t) (by rw [takeIf_eq]; simp only [h]; rfl)]; rfl
  · rename_i h; rw [bind_eq (l1 := t :: l) (a := .other t) (by rw [takeIf_eq]; simp only [h]; rfl)]; rfl

theorem consumeIfAny_pos {ss : List Symbol} (h : ss.any t.isSymbol = true) {f : Option TokRef → M β} :
    runs (consumeIfAny ss >>= f) (t :: l) b l' = runs (f (some t)) l b l' := runs_step (by rw [consumeIfAny_eq, if_pos h])
theorem consumeIfAny_neg {ss : List Symbol} (h : ss.any t.isSymbol = false) {f : Option TokRef → M β} :
    runs (consumeIfAny ss >>= f) (t :: l) b l' = runs (f none) (t :: l) b l' :=
  runs_step (by rw [consumeIfAny_eq, if_neg (by simp [h])])

theorem require_eq (h : is s t = true) : require s m ((t :: l).map .ok) = .ok ⟨some t, l.map .ok, [], 0⟩ := by
  unfold FM.Parser.require
  rw [bind_eq (l1 := l) (a := .took t) (by rw [takeIf_eq, if_pos h])]; rfl
theorem require_pos (h : is s t = true) {f : Option TokRef → M β} : runs (require s m >>= f) (t :: l) b l' = runs (f (some t)) l b l' :=
  runs_step (require_eq h)

theorem requireWithToken_pos {r : TokRef} (h : is s t = true) {f : Option TokRef → M β} :
    runs (requireWithToken s m r >>= f) (t :: l) b l' = runs (f (some t)) l b l' := by
  refine runs_step ?_
  unfold requireWithToken
  rw [bind_eq (l1 := l) (a := .took t) (by rw [takeIf_eq, if_pos h])]; rfl

theorem requireWithRange_pos {r : M (TokRef × TokRef)} (h : is s t = true) {f : Option TokRef → M β} :
    runs (requireWithRange s m r >>= f) (t :: l) b l' = runs (f (some t)) l b l' := by
  refine runs_step ?_
  unfold requireWithRange
  rw [bind_eq (l1 := l) (a := .took t) (by rw [takeIf_eq, if_pos h])]; rfl

theorem requireOr_pos {x : Text} (h : is s t = true) {f : TokRef → M β} :
    runs (requireOr c s m x >>= f) (t :: l) b l' = runs (f t) l b l' := by
  refine runs_step ?_
  unfold requireOr
  rw [bind_eq (l1 := l) (a := some t) (require_eq h)]; rfl

@[simp] theorem peekIs_bind {f : Bool → M β} : runs (peekIs P >>= f) (t :: u :: l) b l' = runs (f (P u)) (t :: u :: l) b l' := runs_step rfl

theorem lastToken_bind {n : Node} (h : n.tokens ≠ []) {f : TokRef → M β} : ∃ t, runs (lastToken n >>= f) l b l' = runs (f t) l b l' := by
  have h1 := (nextBack_spec n.items).1
  rw [(items_spec n).1] at h1
  unfold lastToken
  split
  · rename_i t ht
    exact ⟨t, runs_step rfl⟩
  · rename_i ht
    rw [ht] at h1
    exact absurd (List.getLast?_eq_none_iff.1 h1.symm) h

theorem lastToken_runs {n : Node} (h : n.tokens ≠ []) {f : TokRef → M β} (hf : ∀ t, runs (f t) l b l') : runs (lastToken n >>= f) l b l' := by
  obtain ⟨t, ht⟩ := lastToken_bind (l := l) (l' := l') (b := b) h (f := f)
  rw [ht]; exact hf t

theorem nodeRange_runs {n : Node} (h : n.tokens ≠ []) : ∃ r, nodeRange n (l.map .ok) = .ok ⟨r, l.map .ok, [], 0⟩ := by
  have h1 := (next_spec n.items).1
  rw [(items_spec n).1] at h1
  unfold nodeRange
  revert h1
  obtain ⟨o, rest⟩ := Tokens.next n.items
  intro h1
  cases o with
  | some t => exact ⟨_, rfl⟩
  | none => exact absurd (List.head?_eq_none_iff.1 h1.symm) h

theorem pure_bind' {a : α} {f : α → M β} : runs (pure a >>= f) l b l' = runs (f a) l b l' := runs_step rfl
end

end FM.Parser.Forward
