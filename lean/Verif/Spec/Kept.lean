import Verif.Spec.Tokens
import Verif.Model.Ast.Node

/-!
# Specification: trees that have all tokens of the source

With Luau, the parser can accept a source and leave out some of its tokens.  Whether it did so can be seen from the result:
it is a matter of the tokens of the source and of those of the Ast.
-/

namespace FM.Spec
open FM

/-- Every token of the source is among the printed tokens of the Ast. -/
def Kept (rs : List (LexRes TokRef)) (ast : Ast) : Prop := ∀ t ∈ tokensOf rs, t ∈ ast.nodes.flat ++ [ast.eof]

end FM.Spec
