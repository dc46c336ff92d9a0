import Verif.Model.Ast.Kinds

/-!
# Syntax trees: printing, tokens, ranges and comparison

A node is a token or a `Kind` with its fields.  `HasTy` says that the fields have the types of the Rust
definitions; every tree a Rust program can hold satisfies it.
-/

namespace FM

/-- A syntax node: `TokenReference`, or a struct, variant or container with its fields in declaration
order. -/
inductive Node where
  | tok (t : TokRef)
  | node (k : Kind) (cs : List Node)
  deriving Repr

/-- Number of nodes. -/
@[simp] def Node.size : Node → Nat
  | .tok _ => 1
  | .node _ cs => 1 + sizes cs
where
  @[simp] sizes : List Node → Nat
    | [] => 0
    | c :: cs => c.size + sizes cs

mutual
/-- `HasTy R a n`: the node `n` has the Rust type `a` and all its tokens satisfy `R`. -/
def HasTy (R : TokRef → Prop) : Ty → Node → Prop
  | .tok, .tok t => R t
  | .span, .node .span cs => HasTys R [.tok, .tok] cs
  | .cat c, .node k cs => k.cat = some c ∧ HasTys R k.sig cs
  | .opt _, .node .absent cs => cs = []
  | .opt a, .node .present cs => HasTys R [a] cs
  | .vec a, .node .vec cs => AllTy R a cs
  | .punct a, .node .punct cs => AllTy R (.pair a) cs
  | .pair a, .node .pairEnd cs => HasTys R [a] cs
  | .pair a, .node .pairPunct cs => HasTys R [a, .tok] cs
  | .tup a b, .node .tuple cs => HasTys R [a, b] cs
  | _, _ => False
/-- The nodes have the given types, one by one. -/
def HasTys (R : TokRef → Prop) : List Ty → List Node → Prop
  | [], [] => True
  | a :: as, c :: cs => HasTy R a c ∧ HasTys R as cs
  | _, _ => False
/-- All nodes have the given type. -/
def AllTy (R : TokRef → Prop) : Ty → List Node → Prop
  | _, [] => True
  | a, c :: cs => HasTy R a c ∧ AllTy R a cs
end

/-! ## Folding a tree along a layout -/

/-- What a fold knows about a child: its whole result, the results of its own children, and those of its
grandchildren (needed for spans and for lists of names). -/
structure R (β : Type) where
  all : List β
  parts : List (List β)
  parts2 : List (List (List β))

def R.empty {β : Type} : R β := ⟨[], [], []⟩

/-- The `i`-th child. -/
def R.nth {β : Type} : List (R β) → Nat → R β
  | [], _ => .empty
  | r :: _, 0 => r
  | _ :: rs, i + 1 => R.nth rs i

/-- The `i`-th element, empty if there is none. -/
def part {β : Type} : List (List β) → Nat → List β
  | [], _ => []
  | p :: _, 0 => p
  | _ :: ps, i + 1 => part ps i

/-- `join_type_specifiers` and `join_iterators` (util.rs 53–109): every value followed by its element of the
two lists (padded with `None`) and then by its punctuation.  `pairs` are the parts of the pairs: value and
punctuation. -/
def joinNames {β : Type} (comma : Bool) : (pairs : List (List (List β))) → (first second : List (List β)) → List β
  | [], _, _ => []
  | p :: ps, as, bs =>
    part p 0 ++ part as 0 ++ part bs 0 ++ (if comma then part p 1 else []) ++ joinNames comma ps as.tail bs.tail

/-- The elements of an optional child. -/
def R.elems {β : Type} (rs : List (R β)) : Option Nat → List (List β)
  | none => []
  | some i => (R.nth rs i).parts

/-- One step of a layout. -/
def Slot.run {β : Type} (rs : List (R β)) : Slot → List β
  | .child i => (R.nth rs i).all
  | .opening i => part (R.nth rs i).parts 0
  | .closing i => part (R.nth rs i).parts 1
  | .names n a b => joinNames true (R.nth rs n).parts2 (R.elems rs a) (R.nth rs b).parts
  | .bareNames n a b => joinNames false (R.nth rs n).parts2 (R.elems rs a) (R.nth rs b).parts

/-- All children in order. -/
def concat {β : Type} (rs : List (R β)) : List β := rs.flatMap R.all

/-- A layout; `none` is the declaration order. -/
def arrange {β : Type} (layout : Option (List Slot)) (rs : List (R β)) : List β :=
  match layout with
  | some slots => slots.flatMap (Slot.run rs)
  | none => concat rs

mutual
/-- Fold a tree, given the result for tokens and for a node from those of its children. -/
def Node.fold {β : Type} (leaf : TokRef → List β) (alg : Kind → List (R β) → List β) : Node → R β
  | .tok t => ⟨leaf t, [], []⟩
  | .node k cs => ⟨alg k (Node.folds leaf alg cs), (Node.folds leaf alg cs).map R.all,
      (Node.folds leaf alg cs).map R.parts⟩
def Node.folds {β : Type} (leaf : TokRef → List β) (alg : Kind → List (R β) → List β) : List Node → List (R β)
  | [] => []
  | c :: cs => Node.fold leaf alg c :: Node.folds leaf alg cs
end

/-- Tokens in the order in which they are printed: the `Display` implementations (`#[display]` attributes in
ast/*.rs; hand-written for `NumericFor` ast/mod.rs 774–813, `GenericFor` 942–970, `MethodCall` 1388–1401,
`FunctionBody` 1559–1587, `LocalAssignment` 1946–1967 and `TypeArgument` ast/luau.rs 704–712), as the list of the printed token references. -/
def Node.flat (n : Node) : List TokRef := (n.fold (fun t => [t]) fun k rs => arrange k.layout rs).all

/-- `Display` of a node. -/
def Node.display (n : Node) : Text := n.flat.flatMap TokRef.display

/-! ## Token iteration (node.rs 52–110, full-moon-derive/src/node.rs) -/

/-- `TokenItem` (node.rs 52–55). -/
inductive Item where
  | more (n : Node)
  | ref (t : TokRef)
  deriving Repr

/-- `token_getter` (full-moon-derive/src/node.rs 6–31). -/
def Item.of : Node → Item
  | .tok t => .ref t
  | n => .more n

/-- The containers, whose `tokens` splices the items of their elements. -/
def Kind.isContainer : Kind → Bool
  | .absent | .present | .vec | .tuple | .punct | .pairEnd | .pairPunct | .span => true
  | _ => false

mutual
/-- `Node::tokens`: derived nodes have one item per field (full-moon-derive/src/node.rs 176–202, 405–470);
containers splice the items of their elements (node.rs 184–282, ast/punctuated.rs 227–229, 460–471,
ast/span.rs 56–58). -/
def Node.items : Node → List Item
  | .tok t => [.ref t]
  | .node k cs => if k.isContainer then Node.itemss cs else cs.map Item.of
def Node.itemss : List Node → List Item
  | [] => []
  | c :: cs => c.items ++ Node.itemss cs
end

/-- Bound on the number of expansions an item needs. -/
def Item.weight : Item → Nat
  | .more n => 2 * n.size
  | .ref _ => 1

/-- `Tokens` (node.rs 71–73). -/
abbrev Tokens := List Item

def Tokens.weight (ts : Tokens) : Nat := (ts.map Item.weight).sum

/-- `Tokens::next` (node.rs 78–92) with a bound on the recursion; see `Tokens.next`. -/
def Tokens.nextF : Nat → Tokens → Option TokRef × Tokens
  | 0, ts => (none, ts)
  | _, [] => (none, [])
  | _ + 1, .ref t :: ts => (some t, ts)
  | fuel + 1, .more n :: ts => Tokens.nextF fuel (n.items ++ ts)

/-- `Tokens::next` (node.rs 78–92); the bound on the recursion is never reached, see `next_spec`. -/
def Tokens.next (ts : Tokens) : Option TokRef × Tokens := Tokens.nextF (Tokens.weight ts + 1) ts

/-- `Tokens::next_back` (node.rs 96–109) with a bound on the recursion; the list of items is passed
reversed, so that its head is the last item. -/
def Tokens.backF : Nat → Tokens → Option TokRef × Tokens
  | 0, ts => (none, ts)
  | _, [] => (none, [])
  | _ + 1, .ref t :: ts => (some t, ts)
  | fuel + 1, .more n :: ts => Tokens.backF fuel (n.items.reverse ++ ts)

/-- `Tokens::next_back` (node.rs 96–109). -/
def Tokens.nextBack (ts : Tokens) : Option TokRef × Tokens :=
  let r := Tokens.backF (Tokens.weight ts + 1) ts.reverse
  (r.1, r.2.reverse)

/-- All tokens of a node, in declaration order: what `Node::tokens` (node.rs 24) goes through. -/
def Node.tokens (n : Node) : List TokRef := (n.fold (fun t => [t]) fun _ rs => concat rs).all

/-- `Node::surrounding_trivia` (node.rs 34–49). -/
def Node.surroundingTrivia (n : Node) : List Token × List Token :=
  let r := Tokens.next n.items
  let b := Tokens.nextBack r.2
  ((r.1.map TokRef.leading).getD [], (b.1.map TokRef.trailing).getD [])

/-! ## Positions (node.rs, full-moon-derive/src/node.rs 116–158, 222–322) -/

/-- `start_position` and `end_position`. -/
structure Ends where
  start : Option Position
  stop : Option Position
  deriving Repr, DecidableEq

/-- `Option<Position>` minimum of a tuple (node.rs 254–261); ties keep the first, as `std::cmp::min`. -/
def Ends.minStart : Option Position → Option Position → Option Position
  | some x, some y => some (if y.bytes < x.bytes then y else x)
  | some x, none => some x
  | none, y => y

/-- Maximum of a tuple (node.rs 263–270); ties keep the second, as `std::cmp::max`. -/
def Ends.maxStop : Option Position → Option Position → Option Position
  | some x, some y => some (if x.bytes ≤ y.bytes then y else x)
  | some x, none => some x
  | none, y => y

/-- The first start position that exists. -/
def Ends.firstStart : List Ends → Option Position
  | [] => none
  | e :: es => e.start.or (Ends.firstStart es)

/-- The last end position that exists. -/
def Ends.lastStop : List Ends → Option Position
  | [] => none
  | e :: es => (Ends.lastStop es).or e.stop

def Ends.nth : List Ends → Nat → Ends
  | [], _ => ⟨none, none⟩
  | e :: _, 0 => e
  | _ :: es, i + 1 => Ends.nth es i

/-- `range`: both positions or none (node.rs 27–29). -/
def Ends.both (e : Ends) : Ends :=
  match e.start, e.stop with
  | some a, some b => ⟨some a, some b⟩
  | _, _ => ⟨none, none⟩

/-- Positions of a node from those of its fields (derived: full-moon-derive/src/node.rs 79–93; `Punctuated` and `Pair`:
ast/punctuated.rs 213–219, 446–458; `ContainedSpan`: ast/span.rs 42–48). -/
def Kind.ends (k : Kind) (es : List Ends) : Ends :=
  match k with
  | .absent => ⟨none, none⟩
  | .present => Ends.nth es 0
  | .vec | .punct => ⟨es.head?.bind Ends.start, es.getLast?.bind Ends.stop⟩
  | .tuple => ⟨Ends.minStart (Ends.nth es 0).start (Ends.nth es 1).start,
      Ends.maxStop (Ends.nth es 0).stop (Ends.nth es 1).stop⟩
  | .pairEnd => Ends.nth es 0
  | .pairPunct => ⟨(Ends.nth es 0).start, (Ends.nth es 1).stop.or (Ends.nth es 0).stop⟩
  | .span => ⟨(Ends.nth es 0).start, (Ends.nth es 1).stop⟩
  | k =>
    match k.fullRange with
    | some i => (Ends.nth es i).both
    | none => (Ends.both ⟨Ends.firstStart es, Ends.lastStop es⟩)

mutual
/-- `Node::start_position` and `Node::end_position` (node.rs 13–16).  Boxes and references answer for what they hold, as
in all methods of `Node` (node.rs 131–181). -/
def Node.ends : Node → Ends
  | .tok t => ⟨some t.token.start, some t.token.stop⟩
  | .node k cs => k.ends (Node.endss cs)
def Node.endss : List Node → List Ends
  | [] => []
  | c :: cs => c.ends :: Node.endss cs
end

/-- `Node::range` (node.rs 27–29). -/
def Node.range (n : Node) : Option (Position × Position) :=
  match n.ends.start, n.ends.stop with
  | some a, some b => some (a, b)
  | _, _ => none

/-! ## `similar` (node.rs, ast/punctuated.rs 221–225 and 456–458, full-moon-derive/src/node.rs 160–174, 324–400) -/

/-- The pairs of a `Punctuated`, compared by value only. -/
def Kind.isPair : Kind → Bool
  | .pairEnd | .pairPunct => true
  | _ => false

mutual
/-- `Node::similar`. -/
def Node.similar : Node → Node → Bool
  | .tok a, .tok b => a.token.type == b.token.type
  | .node k cs, .node k' cs' =>
    if k.isPair && k'.isPair then Node.similarHead cs cs'
    else k == k' && Node.similars cs cs'
  | _, _ => false
def Node.similars : List Node → List Node → Bool
  | [], [] => true
  | c :: cs, c' :: cs' => c.similar c' && Node.similars cs cs'
  | _, _ => false
/-- Compare only the values of two pairs. -/
def Node.similarHead : List Node → List Node → Bool
  | c :: _, c' :: _ => c.similar c'
  | _, _ => false
end

/-! ## `Ast` (ast/mod.rs 2441–2490, node.rs 112–128) -/

/-- `Ast` (ast/mod.rs 2441–2444). -/
structure Ast where
  nodes : Node
  eof : TokRef
  deriving Repr

/-- `Display for Ast` (ast/mod.rs 2480–2485). -/
def Ast.display (a : Ast) : Text := a.nodes.display ++ a.eof.display

end FM
