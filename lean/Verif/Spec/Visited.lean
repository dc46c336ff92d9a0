import Verif.Spec.Trees

/-!
# Specification: what an immutable visitor sees (C30)

The tree whose printed tokens are those that an immutable visitor is shown, in this order.
-/

namespace FM.Spec
open FM

/-- The list without its separators. -/
def unseparated : Node → Node
  | .node .punct ps => .node .punct (ps.map fun p => .node .pairEnd (p.children.take 1))
  | n => n

/-- The separators of parameters, of `local` names and of `for` names are left out.  In `<<T>>` the inner `<` takes the
place of the inner `>`. -/
def shownParts : Kind → List Node → List Node
  | .funcBody, [generics, parens, names, types, result, block, last] => [generics, parens, unseparated names, types, result, block, last]
  | .genericFor, [first, names, inside, exprs, opens, block, last, types] => [first, unseparated names, inside, exprs, opens, block, last, types]
  | .localAssignment, [first, types, names, attributes, equal, exprs] => [first, types, unseparated names, attributes, equal, exprs]
  | .typeInst, [outer, .node .span [l, _], types] => [outer, .node .span [l, l], types]
  | _, cs => cs

end FM.Spec

namespace FM
open Spec

/-- The tree an immutable visitor is shown. -/
def Node.shown : Node → Node
  | .tok t => .tok t
  | .node k cs => .node k (shownParts k (showns cs))
where
  showns : List Node → List Node
    | [] => []
    | c :: cs => c.shown :: showns cs

end FM
