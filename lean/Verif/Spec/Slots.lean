import Verif.Spec.Grammar

/-!
# Specification: the tokens in the fields of a node (C59)

The token an accessor returns is of the kind the production of the node has in that field: the `while` token of a `while` loop
is a `while` symbol, the name of a local function an identifier, what separates parameters a comma.
-/

namespace FM.Spec

/-- The tokens in a field, outside the nodes in it, are those of the part of the production. -/
def InField : Part → Node → Prop
  | .tok x, n => ∃ t, n = .tok t ∧ x.Is t
  | .span o e, n => ∃ a b, n = .node .span [.tok a, .tok b] ∧ Term.Is (.sym [o]) a ∧ Term.Is (.sym [e]) b
  | .cat _, _ => True
  | .type, _ => True
  | .opt p, n => ∀ m ∈ n.children, InField p m
  | .many p, n => ∀ m ∈ n.children, InField p m
  | .some p, n => ∀ m ∈ n.children, InField p m
  | .list p separators _, n => ∀ pair ∈ n.children, (∀ m, pair.children.head? = some m → InField p m) ∧
      ∀ m ∈ pair.children.tail, ∃ t, m = .tok t ∧ Term.Is (.sym separators) t
  | .pair p q, n => ∃ x y, n = .node .tuple [x, y] ∧ InField p x ∧ InField q y

/-- So are those in all fields. -/
def InFields : List Part → List Node → Prop
  | [], [] => True
  | p :: ps, n :: ns => InField p n ∧ InFields ps ns
  | _, _ => False

/-- The production of a node of a tree that may have been returned with errors: after an error for it, the type of the results
of a function may stand after `->`. -/
def recovered (f : Features) : Kind → List Part
  | .typeSpec => [.tok (.sym [.colon, .thinArrow]), .cat .typeInfo]
  | k => production f k

/-- The tokens in the fields of the node are those of its production. -/
def tokensNamed (f : Features) (k : Kind) (cs : List Node) : Prop := k.cat ≠ none → InFields (recovered f k) cs

/-- So are those of every node of the tree. -/
def TokensNamed (f : Features) (n : Node) : Prop := n.Every (tokensNamed f)

end FM.Spec
