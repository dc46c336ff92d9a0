import Verif.Model.Token

/-!
# Model of `ast/punctuated.rs`

`Vec` is modelled by `List` (its end is the end of the list).  Borrowed, mutable and owned iterators visit
the same pairs in the same order; `value_mut` is a lens on the value.
-/

namespace FM

/-- `Pair` (ast/punctuated.rs 336–350). -/
inductive Pair (α : Type) where
  | «end» (value : α)
  | punctuated (value : α) (punctuation : TokRef)
  deriving Repr, DecidableEq

namespace Pair
variable {α β : Type}

/-- `Pair::new` (ast/punctuated.rs 358–363). -/
def new (value : α) : Option TokRef → Pair α
  | none => .end value
  | some p => .punctuated value p

/-- `Pair::into_tuple` (ast/punctuated.rs 371–376). -/
def intoTuple : Pair α → α × Option TokRef
  | .end v => (v, none)
  | .punctuated v p => (v, some p)

/-- `Pair::into_value` (ast/punctuated.rs 384–386). -/
def intoValue (p : Pair α) : α := p.intoTuple.1

/-- `Pair::value` (ast/punctuated.rs 394–399). -/
def value : Pair α → α
  | .end v => v
  | .punctuated v _ => v

/-- `Pair::value_mut` (ast/punctuated.rs 408–413), as the update of the value through the reference. -/
def modifyValue (f : α → α) : Pair α → Pair α
  | .end v => .end (f v)
  | .punctuated v p => .punctuated (f v) p

/-- `Pair::punctuation` (ast/punctuated.rs 421–426). -/
def punctuation : Pair α → Option TokRef
  | .end _ => none
  | .punctuated _ p => some p

/-- `Pair::map` (ast/punctuated.rs 435–440). -/
def map (f : α → β) : Pair α → Pair β
  | .end v => .end (f v)
  | .punctuated v p => .punctuated (f v) p

/-- `Display for Pair` (ast/punctuated.rs 340–349), given how values are printed. -/
def display (show_ : α → Text) : Pair α → Text
  | .end v => show_ v
  | .punctuated v p => show_ v ++ p.display

end Pair

/-- `Punctuated` (ast/punctuated.rs 36–38). -/
structure Punctuated (α : Type) where
  pairs : List (Pair α)
  deriving Repr, DecidableEq

/-- The result of a call that may panic: the collection afterwards (visible to a caller that catches the
panic) and either a value or the panic. -/
inductive Called (σ β : Type) where
  | returned (b : β) (after : σ)
  | panicked (after : σ)
  deriving Repr, DecidableEq

namespace Punctuated
variable {α : Type}

/-- `Punctuated::new` (ast/punctuated.rs 46–48). -/
def new : Punctuated α := ⟨[]⟩

/-- `Punctuated::len` (ast/punctuated.rs 70–72). -/
def len (p : Punctuated α) : Nat := p.pairs.length

/-- `Punctuated::is_empty` (ast/punctuated.rs 58–60). -/
def isEmpty (p : Punctuated α) : Bool := p.len == 0

/-- `Punctuated::first` (ast/punctuated.rs 122–124). -/
def first (p : Punctuated α) : Option (Pair α) := p.pairs.head?

/-- `Punctuated::last` (ast/punctuated.rs 133–135). -/
def last (p : Punctuated α) : Option (Pair α) := p.pairs.getLast?

/-- `Vec::pop` as used by `Punctuated::pop` (ast/punctuated.rs 171–173). -/
def pop (p : Punctuated α) : Option (Pair α) × Punctuated α := (p.pairs.getLast?, ⟨p.pairs.dropLast⟩)

/-- `Punctuated::push` (ast/punctuated.rs 182–184). -/
def push (p : Punctuated α) (pair : Pair α) : Punctuated α := ⟨p.pairs ++ [pair]⟩

/-- `Punctuated::push_punctuated` (ast/punctuated.rs 188–201). -/
def pushPunctuated (p : Punctuated α) (value : α) (punctuation : TokRef) : Called (Punctuated α) Unit :=
  match p.pop with
  | (none, p) => .panicked p
  | (some lastPair, p) =>
    match lastPair.punctuation with
    | some _ => .panicked (p.push lastPair)
    | none => .returned () ((p.push (.punctuated lastPair.intoValue punctuation)).push (.new value none))

/-- `Extend::extend` (ast/punctuated.rs 246–250). -/
def extend (p : Punctuated α) (more : List (Pair α)) : Punctuated α := ⟨p.pairs ++ more⟩

/-- `Iter::next` (ast/punctuated.rs 313–319) on the pairs that remain. -/
def iterNext : List (Pair α) → Option (α × List (Pair α))
  | [] => none
  | p :: ps => some (p.value, ps)

/-- Collecting `iter()` (ast/punctuated.rs 83–85, 271–279): `next` until it answers `None`. -/
def collectIter : List (Pair α) → List α
  | [] => []
  | p :: ps =>
    match iterNext (p :: ps) with
    | none => []
    | some (v, _) => v :: collectIter ps

/-- `IntoIter::next` (ast/punctuated.rs 299–305) on the pairs that remain. -/
def intoIterNext : List (Pair α) → Option (α × List (Pair α))
  | [] => none
  | p :: ps => some (p.intoValue, ps)

/-- Collecting `into_iter()` (ast/punctuated.rs 252–261). -/
def collectIntoIter : List (Pair α) → List α
  | [] => []
  | p :: ps =>
    match intoIterNext (p :: ps) with
    | none => []
    | some (v, _) => v :: collectIntoIter ps

/-- Running `f` on every item of `iter_mut()` (ast/punctuated.rs 97–99, 282–290, 327–333). -/
def forEachMut (f : α → α) (p : Punctuated α) : Punctuated α := ⟨p.pairs.map (Pair.modifyValue f)⟩

/-- `Display for Punctuated` (ast/punctuated.rs 35). -/
def display (show_ : α → Text) (p : Punctuated α) : Text := p.pairs.flatMap (Pair.display show_)

end Punctuated
end FM
