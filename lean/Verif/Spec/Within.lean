import Verif.Spec.Trees
import Verif.Model.Parser.Parse

/-!
# The parts of a tree

Specification.
-/

namespace FM.Spec
open FM

/-- `Within m n`: `m` is the tree `n`, or one of its parts, at any depth. -/
inductive Within (m : Node) : Node → Prop where
  | self : Within m m
  | child {k cs x} : x ∈ cs → Within m x → Within m (.node k cs)

/-- A token reference without its positions. -/
def unplaced (t : TokRef) : TokRef :=
  ⟨t.leading.map fun x => ⟨⟨0, 0, 0⟩, ⟨0, 0, 0⟩, x.type⟩, ⟨⟨0, 0, 0⟩, ⟨0, 0, 0⟩, t.token.type⟩, t.trailing.map fun x => ⟨⟨0, 0, 0⟩, ⟨0, 0, 0⟩, x.type⟩⟩

/-- The block of one statement, without a semicolon. -/
def ofStmt (s : Node) : Node := .node .block [.node .vec [.node .tuple [s, .node .absent []]], .node .absent []]

/-- The block of a last statement (`return`, `break`, `continue`) only. -/
def ofLast (s : Node) : Node := .node .block [.node .vec [], .node .present [.node .tuple [s, .node .absent []]]]

/-- The word `return` at the end of a line. -/
def returnLine : TokRef := ⟨[], ⟨⟨0, 0, 0⟩, ⟨0, 0, 0⟩, .symbol .kReturn⟩, [⟨⟨0, 0, 0⟩, ⟨0, 0, 0⟩, .whitespace c!"\n"⟩]⟩

/-- The block that returns the value of an expression. -/
def ofExpr (e : Node) : Node := ofLast (.node .lastReturn [.node .ret [.tok returnLine, .node .punct [.node .pairEnd [e]]]])

/-- The text is accepted, without skipping anything, and read as the block: the tree is equal up to positions and trivia,
its tokens have the same trivia, and nothing stands behind them. -/
def ReadAs (c : Cfg) (text : Text) (block : Node) : Prop :=
  ∃ ast : Ast, parseFallible c text = .ok ⟨ast, [], 0⟩ ∧ ast.nodes.mapTok bare = block.mapTok bare ∧
    ast.nodes.flat.map unplaced = block.flat.map unplaced ∧ ast.eof.leading = []

end FM.Spec
