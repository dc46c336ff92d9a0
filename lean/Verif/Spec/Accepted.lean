import Verif.Spec.Grammar
import Verif.Spec.Parsing

/-!
# Specification: accepted sources (C18, C19, C23, C35, C40, C43)
-/

namespace FM.Spec
open FM.Parser

/-- The tokens of a last statement (`return …`, `break`, Luau: `continue`), with its semicolon if there is one. -/
def LastStatement (c : Cfg) (ts : List TokRef) : Prop :=
  ∃ n, Conforms c (.pair (.cat .lastStmt) (.opt (.sym .semicolon))) n ∧ n.flat = ts

/-- The block has a last statement. -/
def HasLast (block : Node) : Prop := ∃ stmts last, block = .node .block [stmts, .node .present [last]]

/-- The operators of an expression outside brackets, function bodies, `if` expressions and type assertions. -/
def operators : Node → List Edge
  | .node .exprBinary [l, o, r] => .binary (opText o) :: (operators l ++ operators r)
  | .node .exprUnary [_, e] => .unary :: operators e
  | _ => []

/-- The operators bind as the manual's table says: the operators of the left operand bind tighter than the operator, or
as tight if it is left associative; the binary operators of the right operand bind tighter, or as tight if it is right
associative; those of the operand of a unary operator bind tighter than unary operators. -/
def precedence : Kind → List Node → Prop
  | .exprBinary, [l, o, r] =>
    (∀ p, .binary p ∈ operators l → row (opText o) < row p ∨ row (opText o) = row p ∧ rightAssociative (opText o) = false) ∧
    (.unary ∈ operators l → row (opText o) < unaryRow) ∧
    ∀ p, .binary p ∈ operators r → row (opText o) < row p ∨ row (opText o) = row p ∧ rightAssociative (opText o) = true
  | .exprUnary, [_, e] => ∀ p, .binary p ∈ operators e → unaryRow < row p
  | _, _ => True

/-- A block has statements that are not last statements, each with an optional semicolon, and at the end an optional
last statement. -/
def blockForm : Kind → List Node → Prop
  | .block, cs => ∃ stmts last, cs = [.node .vec stmts, last] ∧
    (∀ s ∈ stmts, ∃ k x semi, s = .node .tuple [.node k x, semi] ∧ k.cat = some .stmt) ∧
    (last = .node .absent [] ∨
      ∃ k x semi, last = .node .present [.node .tuple [.node k x, semi]] ∧
        (k = .lastReturn ∨ k = .lastBreak ∨ k = .lastContinue))
  | _, _ => True

end FM.Spec
