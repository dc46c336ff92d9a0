import Verif.Spec.Luau
import Verif.Model.Parser.State

/-! # Specification: what stands in front of an error -/

namespace FM.Spec
open FM

/-- The symbols that begin a statement or end a block, but for `(`, which can also go on with an expression, and, in Luau,
`::`, which can begin a type assertion. -/
def beginning : List Symbol := [.kLocal, .kFor, .kDo, .kIf, .kFunction, .kRepeat, .kWhile, .kGoto, .kReturn, .kBreak, .kEnd, .kElse, .kElseIf,
  .kUntil, .atSign]

/-- The token is a name, one of these symbols or the end of the file. -/
def Begins (c : Cfg) (t : TokRef) : Prop :=
  t.token.type.kind = .identifier ∨ t.token.type = .eof ∨ (∃ s ∈ beginning, t.token.type = .symbol s) ∨
    c.has .luau = false ∧ t.token.type = .symbol .twoColons

instance (c : Cfg) (t : TokRef) : Decidable (Begins c t) := by unfold Begins; infer_instance

/-- The last statement of the list has a semicolon behind it, or there is none. -/
def closedBySemicolon (stmts : List Node) : Bool :=
  match stmts.getLast? with
  | none => true
  | some (.node .tuple [_, .node .present _]) => true
  | _ => false

/-- The token ends a block or begins a last statement with a keyword, or is a name that cannot be a value of the last statement of the block. -/
def EndsBlock (block : Node) (t : TokRef) : Prop :=
  t.token.type = .eof ∨ (∃ s ∈ [Symbol.kEnd, .kElse, .kElseIf, .kUntil, .kReturn, .kBreak], t.token.type = .symbol s) ∨
    t.token.type.kind = .identifier ∧ openReturn block = false

instance (block : Node) (t : TokRef) : Decidable (EndsBlock block t) := by unfold EndsBlock; infer_instance

/-- The statements of a block, each with its semicolon. -/
def statementsOf : Node → List Node
  | .node .block [.node .vec stmts, _] => stmts
  | _ => []

/-- One of the errors is about a statement behind a last statement. -/
def ReportsLate (errors : List Parser.Err) : Prop := ∃ t, Parser.Err.ast t "unexpected statement after last statement" none ∈ errors

end FM.Spec
