import Verif.Model.Ast.Builders

/-!
# Specification: accessors and `with_*` methods (C48)
-/

namespace FM.Spec
open FM

/-- The accessors that show what a `with_*` method sets.  In general the names agree: `with_block` sets what `block`
shows.  The exceptions are listed. -/
def accessorsOf (k : Kind) (setter : Text) : List Text :=
  if k = .block ∧ setter = c!"with_stmts" then [c!"stmts", c!"stmts_with_semicolon"]
  else if k = .block ∧ setter = c!"with_last_stmt" then [c!"last_stmt", c!"last_stmt_with_semicolon"]
  else if k = .ifBlock ∧ setter = c!"with_else" then [c!"else_block"]
  else if k = .methodCall ∧ setter = c!"with_type_instanation" then [c!"type_instantiation"]
  else if k = .functionName ∧ setter = c!"with_method" then [c!"method_colon", c!"method_name"]
  else if k = .genericDeclParam ∧ setter = c!"with_default" then [c!"equals", c!"default_type"]
  else if k = .ifExpr ∧ setter = c!"with_else_if" then [c!"else_if_expressions"]
  else if k = .ifExpr ∧ setter = c!"with_else" then [c!"else_expression"]
  else if k = .elseIfExpr ∧ setter = c!"with_block" then [c!"expression"]
  else [setter.drop 5]

/-- The two components of a pair. -/
def firstOf : Node → Node
  | .node .tuple [a, _] => a
  | n => n
def secondOf : Node → Node
  | .node .tuple [_, b] => b
  | n => n

/-- What an accessor is to show of a value that was set: the value, or the statements without their semicolons, or one
half of an optional pair. -/
def shown (k : Kind) (accessor : Text) (v : Node) : Node :=
  match v with
  | .node .vec ps => if k = .block ∧ accessor = c!"stmts" then .node .vec (ps.map firstOf) else v
  | .node .present [p] =>
    if (k = .block ∧ accessor = c!"last_stmt") ∨ (k = .functionName ∧ accessor = c!"method_colon") ∨
      (k = .genericDeclParam ∧ accessor = c!"equals") then .node .present [firstOf p]
    else if (k = .functionName ∧ accessor = c!"method_name") ∨ (k = .genericDeclParam ∧ accessor = c!"default_type") then
      .node .present [secondOf p]
    else v
  | v => v

/-- The parts whose tokens are not printed in one piece: a pair of brackets surrounds what it contains, and a list of
names is printed together with the annotations of the names. -/
def Scattered (k : Kind) (param : Ty) (setter : Text) : Prop :=
  param = .span ∨
  (k = .genericFor ∧ (setter = c!"with_names" ∨ setter = c!"with_type_specifiers")) ∨
  (k = .funcBody ∧ (setter = c!"with_parameters" ∨ setter = c!"with_type_specifiers")) ∨
  (k = .localAssignment ∧ (setter = c!"with_names" ∨ setter = c!"with_type_specifiers" ∨ setter = c!"with_attributes"))

instance {k : Kind} {param : Ty} {setter : Text} : Decidable (Scattered k param setter) := by unfold Scattered; infer_instance

end FM.Spec
