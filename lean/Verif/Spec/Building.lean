import Verif.Spec.Grammar
import Verif.Spec.Luau
import Verif.Spec.Spacing

/-!
# Specification: trees made by hand (C49)
-/

namespace FM.Spec

/-- Between two neighbouring tokens there is white space, possibly followed by comments, or there is nothing and the
tokens may touch. -/
def Joined (c : Cfg) (t u : TokRef) : Prop :=
  Gap c (text t.trailing ++ text u.leading) ∨ (text t.trailing = [] ∧ text u.leading = [] ∧ MayTouch c t.token.type u.token.type)

/-- A token that can be read back from its text, with white space and comments around it; behind it white space comes
first. -/
def TidyToken (c : Cfg) (t : TokRef) : Prop :=
  Alone c t.token.type ∧ Filler c (text t.leading) ∧ (text t.trailing = [] ∨ Gap c (text t.trailing))

/-- All tokens are tidy, and neighbours are joined. -/
def Tidy (c : Cfg) : List TokRef → Prop
  | [] => True
  | t :: ts => TidyToken c t ∧ (∀ u, ts.head? = some u → Joined c t u) ∧ Tidy c ts

/-- A node of the grammar that is printed with white space where it is needed.  In Luau, where more than one node could be
printed like this, it is the one that is read. -/
structure Readable (c : Cfg) (p : Part) (n : Node) : Prop where
  conforms : Conforms c p n
  tidy : Tidy c n.flat
  chosen : c.has .luau = true → n.Every Chosen

/-- The text does not start with a comment. -/
def NoComment (c : Cfg) (ts : List TokRef) : Prop := ∀ t, ts.head? = some t → text t.leading = [] ∨ Gap c (text t.leading)

/-- A name token that can be read back. -/
def ReadableName (c : Cfg) (t : TokRef) : Prop := (∃ x, t.token.type = .identifier x) ∧ TidyToken c t

/-- `None`, `count` times, if the annotations exist. -/
def nones (exist : Bool) (count : Nat) : Node := .node .vec (List.replicate (if exist then count else 0) (.node .absent []))

/-- The number of parameters that may have types. -/
def typedParams (c : Cfg) (ps : Node) : Nat := if c.has .luau then ps.children.length else (ps.children.filter namedParam).length

end FM.Spec
