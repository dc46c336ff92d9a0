import Verif.Spec.Within

/-!
# Programs one behind the other

Specification.
-/

namespace FM.Spec
open FM

/-- The statements of the first block, then the second block. -/
def joined : Node → Node → Node
  | .node .block [.node .vec as, .node .absent []], .node .block [.node .vec bs, last] => .node .block [.node .vec (as ++ bs), last]
  | _, n => n

/-- The token references, the first of which has the given trivia in front of it. -/
def behind (trivia : List Token) : List TokRef → List TokRef
  | [] => []
  | t :: ts => ⟨trivia ++ t.leading, t.token, t.trailing⟩ :: ts

end FM.Spec
