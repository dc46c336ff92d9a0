import Verif.Spec.Later
import Verif.Spec.Luau

/-!
# Specification: programs of Lua 5.1 in Luau (C61)

What the tokens of a program of Lua 5.1 have to be for Luau to read it the same, and the only difference between the trees.
-/

namespace FM.Spec
open FM

/-- The same build, where `c` is Lua 5.1 and `c'` Luau, possibly with other versions. -/
structure AddsLuau (c c' : Cfg) : Prop where
  feat : c'.feat = c.feat
  lua51 : ∀ v, c.has v = false
  luau : c'.has .luau = true

/-- A number goes on with this character in `c'`: in Luau numbers have `_` between their digits, and `0` starts binary
numbers. -/
def goesOnLuau (c c' : Cfg) (t : Text) (ch : Char) : Bool :=
  goesOn c c' t ch || ch == '_' || (t == c!"0" && (ch == 'b' || ch == 'B'))

/-- No name becomes a keyword (there is none in Luau itself), no number is directly followed by a character with which it
would go on, and there are no strings in backticks (which builds with CfxLua allow in every version but Luau). -/
def KeepsLuau (c c' : Cfg) (tys : List TokenType) : Prop :=
  (∀ x, .identifier x ∈ tys → Reserved c' x → Reserved c x) ∧
  (∀ a t u b, tys = a ++ .number t :: u :: b → startsWith (goesOnLuau c c' t) u.display = false) ∧
  ∀ t n, .stringLiteral t n .backtick ∉ tys

/-- The types of the parameters of a function, with the absent one of `...`, which trees of Lua 5.1 do not list. -/
def allTypes (params : Node) : Node → Node
  | .node k ts => if params.children.all namedParam then .node k ts else .node k (ts ++ [.node .absent []])
  | .tok t => .tok t

/-- The parts of a function body with all types. -/
def bodyParts : Kind → List Node → List Node
  | .funcBody, [generics, parens, params, types, result, block, end_] =>
    [generics, parens, params, allTypes params types, result, block, end_]
  | _, cs => cs

/-- The tree with the types of all parameters in all functions. -/
def luauTree : Node → Node
  | .tok t => .tok t
  | .node k cs => .node k (bodyParts k (luauTrees cs))
where
  luauTrees : List Node → List Node
    | [] => []
    | n :: ns => luauTree n :: luauTrees ns

end FM.Spec
