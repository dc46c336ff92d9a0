import Verif.Spec.Trees
import Verif.Model.Ast.Visit

/-!
# Specification: calls received by a visitor (C30, C42, C52)
-/

namespace FM.Spec

/-- The token passed to a hook for a kind of token (`visit_identifier`, `visit_symbol`, ...). -/
def byKind : Ev → Option Token
  | .tokenKind t => some t
  | _ => none

/-- The tokens passed to the hooks for the kinds of tokens, in the order of the calls. -/
def seen (es : List Ev) : List Token := es.filterMap byKind

/-- The kinds of tokens that have a hook: all but `Eof` and shebang. -/
def hasHook (t : Token) : Bool :=
  match t.type with
  | .eof | .shebang _ => false
  | _ => true

/-- Openings and closings of nodes match: every `visit_x` is closed by its `visit_x_end`, innermost first.
The first argument lists the nodes still open. -/
def nested : List (Option Cat) → List Ev → Bool
  | open_, [] => open_.isEmpty
  | open_, .enter c :: es => nested (some c :: open_) es
  | open_, .enterSpan :: es => nested (none :: open_) es
  | some c :: open_, .leave d :: es => c == d && nested open_ es
  | none :: open_, .leaveSpan :: es => nested open_ es
  | _, .leave _ :: _ | _, .leaveSpan :: _ => false
  | open_, _ :: es => nested open_ es

/-- The call is one of a hook on nodes (`visit_x` or `visit_x_end`), not on tokens. -/
def onNode : Ev → Bool
  | .enter _ | .leave _ | .enterSpan | .leaveSpan => true
  | _ => false

/-- The types of the nodes of a tree, outermost first. -/
def _root_.FM.Node.types : Node → List Cat
  | .tok _ => []
  | .node k cs => k.cat.toList ++ typesOf cs
where
  typesOf : List Node → List Cat
    | [] => []
    | c :: cs => c.types ++ typesOf cs

/-- The node types that have hooks: the traits have no `visit_bin_op`, and `visit_interpolated_string_segment` is a hook on
tokens. -/
def hasHooks (c : Cat) : Bool := c != .binOp && c != .interpSegment

/-- `g` done to every node, parts first, and `h` to every token.  Node types without hooks keep their nodes. -/
def _root_.FM.Node.rewrite (h : TokRef → TokRef) (g : Cat → Node → Node) : Node → Node
  | .tok t => .tok (h t)
  | .node k cs =>
    match k.cat with
    | some c => if hasHooks c then g c (.node k (rewrites h g cs)) else .node k (rewrites h g cs)
    | none => .node k (rewrites h g cs)
where
  rewrites (h : TokRef → TokRef) (g : Cat → Node → Node) : List Node → List Node
    | [] => []
    | c :: cs => c.rewrite h g :: rewrites h g cs

/-- A mutable visitor that changes nothing and writes down its calls.  `visit_token_reference` has no counterpart among the
calls of an immutable visitor, which receives `visit_token` once more instead. -/
def recorder : MutVisitor (List Ev) where
  reference t := fun log => (t, log ++ [.token t.token])
  eof t := fun log => (t, log ++ [.eof t])
  token t := fun log => (t, log ++ [.token t])
  tokenKind t := fun log => (t, log ++ [.tokenKind t])
  enter e _ := fun log => ((), log ++ [e])
  leave e n := fun log => (n, log ++ [e])

/-- A mutable visitor that overrides `visit_x_end` hooks with functions, and hooks on tokens. -/
def rewriter (h : Token → Token) (g : Cat → Node → Node) : MutVisitor Unit where
  token t := pure (h t)
  leave e n := match e with
    | .leave c => pure (g c n)
    | _ => pure n

end FM.Spec
