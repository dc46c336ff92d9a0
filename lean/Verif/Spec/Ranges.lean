import Verif.Spec.Trees

/-!
# Specification: the ends of nodes (C27)
-/

namespace FM.Spec
open FM

/-- No list has an element without tokens, except lists of annotations, and the components of a pair (a statement and its
semicolon, ...) stand in order. -/
def listed (k : Kind) (cs : List Node) : Prop :=
  (k = .vec ∨ k = .punct ∨ k = .pairPunct →
    (∀ c ∈ cs, c.flat ≠ []) ∨ ∀ c ∈ cs, ∃ ds, c = .node .absent ds ∨ c = .node .present ds) ∧
  (k = .tuple → Ordered (cs.flatMap Node.flat))

/-- So are all nodes of the tree. -/
def Listed (n : Node) : Prop := n.Every listed

/-- Nodes that consist of brackets and what stands between them: `{...}`, `(...)` as an expression or as arguments,
`<const>` and `<<...>>`. -/
def bracketed (k : Kind) : Prop := k = .tableCtor ∨ k = .exprParens ∨ k = .argsParens ∨ k = .attribute ∨ k = .typeInst

/-- From the node to its last part that has a token, to the last part of that part, and so on, up to a token or to one of
these bracketed nodes, all nodes have their last field printed last. -/
inductive Closes : Node → Prop
  | tok (t : TokRef) : Closes (.tok t)
  | empty {n : Node} (h : n.flat = []) : Closes n
  | brackets {k : Kind} (h : bracketed k) (cs : List Node) : Closes (.node k cs)
  | last {k : Kind} {pre post : List Node} {last : Node} (hs : straight k (pre ++ last :: post)) (hne : last.flat ≠ [])
    (he : ∀ n ∈ post, n.flat = []) (hl : Closes last) : Closes (.node k (pre ++ last :: post))

end FM.Spec
