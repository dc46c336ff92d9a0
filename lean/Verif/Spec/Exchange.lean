import Verif.Spec.Within
import Verif.Spec.Luau

/-!
# A part of a tree exchanged for another

Specification.
-/

namespace FM.Spec
open FM

/-- `Exchanged b b' n n'`: the tree `n'` is `n` with one of its parts, `b`, exchanged for `b'`. -/
inductive Exchanged (b b' : Node) : Node → Node → Prop where
  | here : Exchanged b b' b b'
  | inside {k before after m m'} : Exchanged b b' m m' →
      Exchanged b b' (.node k (before ++ m :: after)) (.node k (before ++ m' :: after))

end FM.Spec
