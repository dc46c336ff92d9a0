import Verif.Spec.Within

/-!
# A `#!` line

Specification.
-/

namespace FM.Spec
open FM

/-- A `#!` line, without the line break. -/
def IsShebang (line : Text) : Prop := line.take 2 = ['#', '!'] ∧ '\n' ∉ line

/-- What follows a line: the end of the file or a line break. -/
def AfterLine (rest : Text) : Prop := rest = [] ∨ rest.head? = some '\n'

/-- The token references, the first of which has the `#!` line in front of it. -/
def withLine (line : Text) : List TokRef → List TokRef
  | [] => []
  | t :: ts => ⟨⟨⟨0, 0, 0⟩, ⟨0, 0, 0⟩, .shebang line⟩ :: t.leading, t.token, t.trailing⟩ :: ts

end FM.Spec
