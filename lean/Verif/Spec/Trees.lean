import Verif.Model.Ast.Node
import Verif.Model.Config
import Verif.Spec.Tokens

/-!
# Specification: syntax trees (C25–C32, C39)
-/

namespace FM

/-- The fields or elements of a node. -/
def Node.children : Node → List Node
  | .tok _ => []
  | .node _ cs => cs

/-- Apply a function to all tokens of a tree. -/
def Node.mapTok (f : TokRef → TokRef) : Node → Node
  | .tok t => .tok (f t)
  | .node k cs => .node k (mapToks f cs)
where
  mapToks (f : TokRef → TokRef) : List Node → List Node
    | [] => []
    | c :: cs => c.mapTok f :: mapToks f cs

/-- A condition holds at every node of a tree. -/
def Node.Every (p : Kind → List Node → Prop) : Node → Prop
  | .tok _ => True
  | .node k cs => p k cs ∧ everys p cs
where
  everys (p : Kind → List Node → Prop) : List Node → Prop
    | [] => True
    | c :: cs => c.Every p ∧ everys p cs

/-- Types other than lists of options (the type specifiers and attributes of lists of names), whose range the list
itself cannot tell. -/
def Ty.regular : Ty → Bool
  | .vec (.opt _) => false
  | .vec a | .opt a | .punct a | .pair a => a.regular
  | .tup a b => a.regular && b.regular
  | _ => true

end FM

namespace FM.Spec

/-- The lists of optional annotations (types, attributes) of names are not longer than the list of names
they annotate.  `FunctionBody::with_type_specifiers`, `GenericFor::with_type_specifiers`,
`LocalAssignment::with_type_specifiers` and `with_attributes` accept longer lists, whose rest is never
printed. -/
def annotationsFit : Kind → List Node → Prop
  | .funcBody, [_, _, names, types, _, _, _] => types.children.length ≤ names.children.length
  | .genericFor, [_, names, _, _, _, _, _, types] => types.children.length ≤ names.children.length
  | .localAssignment, [_, types, names, attributes, _, _] =>
    types.children.length ≤ names.children.length ∧ attributes.children.length ≤ names.children.length
  | _, _ => True

/-- Every list of annotations of the tree fits. -/
def AnnotationsFit (n : Node) : Prop := n.Every annotationsFit

/-- Annotations exist only if their feature is compiled in (without it the field does not exist). -/
def annotationsCompiled (f : Features) : Kind → List Node → Prop
  | .funcBody, [_, _, _, types, _, _, _] => f.luau = false → types.children = []
  | .genericFor, [_, _, _, _, _, _, _, types] => f.luau = false → types.children = []
  | .localAssignment, [_, types, _, attributes, _, _] =>
    (f.luau = false → types.children = []) ∧ (f.lua54 = false → attributes.children = [])
  | _, _ => True

/-- The tree only uses fields that exist with the compiled features. -/
def AnnotationsCompiled (f : Features) (n : Node) : Prop := n.Every (annotationsCompiled f)

/-- The lists of annotations have one entry (possibly `None`) per name. -/
def annotationsFull (f : Features) : Kind → List Node → Prop
  | .funcBody, [_, _, names, types, _, _, _] => f.luau = true → types.children.length = names.children.length
  | .genericFor, [_, names, _, _, _, _, _, types] => f.luau = true → types.children.length = names.children.length
  | .localAssignment, [_, types, names, attributes, _, _] =>
    (f.luau = true → types.children.length = names.children.length) ∧
    (f.lua54 = true → attributes.children.length = names.children.length)
  | _, _ => True

/-- Every list of annotations of the tree has one entry per name. -/
def AnnotationsFull (f : Features) (n : Node) : Prop := n.Every (annotationsFull f)

/-- One call on a double-ended iterator. -/
inductive Side where
  | front | back
  deriving Repr, DecidableEq

/-- A double-ended iterator on a fixed list: its answers to a sequence of calls. -/
def twoEnded {α : Type} : List α → List Side → List (Option α)
  | _, [] => []
  | l, .front :: cs => l.head? :: twoEnded l.tail cs
  | l, .back :: cs => l.getLast? :: twoEnded l.dropLast cs

/-- The first and last fields of a node in declaration order are the ones printed first and last: false for
a field printed inside a `ContainedSpan` declared before it (unless that field is empty) and for annotations
declared out of order. -/
def straight : Kind → List Node → Prop
  | .tableCtor, [_, x] | .exprParens, [_, x] | .indexBrackets, [_, x] | .argsParens, [_, x] | .attribute, [_, x]
  | .genericDecl, [_, x] | .tyTable, [_, x] | .tyTuple, [_, x] | .keyIndex, [_, x]
  | .tyGeneric, [_, _, x] | .idxGeneric, [_, _, x] | .tyTypeof, [_, _, x] => x.flat = []
  | .tyArray, [_, a, x] => a.flat = [] ∧ x.flat = []
  | .typeInst, _ => False
  | .numericFor, [_, _, _, _, _, _, _, _, _, _, _, type] => type.flat = []
  | .genericFor, [_, _, _, _, _, _, _, types] => ∀ t ∈ types.children, t.flat = []
  | .localAssignment, [_, types, _, attributes, equal, exprs] => equal.flat ≠ [] ∨ exprs.flat ≠ [] ∨
    (∀ t ∈ types.children, t.flat = []) ∧ (∀ a ∈ attributes.children, a.flat = [])
  | _, _ => True

/-- Every node of the tree is straight. -/
def Straight (n : Node) : Prop := n.Every straight

/-- The tokens stand one after the other. -/
def Ordered (ts : List TokRef) : Prop :=
  ts.Pairwise fun a b => a.token.start.bytes ≤ b.token.start.bytes ∧ a.token.stop.bytes ≤ b.token.stop.bytes

/-- The nodes whose tokens the immutable visitor does not all visit once and in order: type instantiations,
and lists of names (parameters, `local` names, `for` names) with commas. -/
def visitable : Kind → List Node → Prop
  | .funcBody, [_, _, names, _, _, _, _] | .genericFor, [_, names, _, _, _, _, _, _]
  | .localAssignment, [_, _, names, _, _, _] => ∀ p ∈ names.children, p.children.length ≤ 1
  | .typeInst, _ => False
  | _, _ => True

/-- Every node of the tree is visitable. -/
def Visitable (n : Node) : Prop := n.Every visitable

/-- All tokens of a list of token references, trivia included, in print order. -/
def allTokens (ts : List TokRef) : List Token := ts.flatMap TokRef.flat

/-- Each token starts at the position reached by the text before it and ends where its own text ends. -/
def Positioned : (before : Text) → List Token → Prop
  | _, [] => True
  | before, t :: ts =>
    t.start = position before ∧ t.stop = endPosition before t.display ∧ Positioned (before ++ t.display) ts

/-- A token reduced to its type. -/
def bare (t : TokRef) : TokRef := ⟨[], ⟨⟨0, 0, 0⟩, ⟨0, 0, 0⟩, t.token.type⟩, []⟩

/-- Drop the separators of lists. -/
def unpunctuate : Node → Node
  | .tok t => .tok t
  | .node .pairPunct (v :: _) => .node .pairEnd [unpunctuate v]
  | .node k cs => .node k (go cs)
where
  go : List Node → List Node
    | [] => []
    | c :: cs => unpunctuate c :: go cs

/-- A tree without positions, trivia and separators. -/
def shape (n : Node) : Node := unpunctuate (n.mapTok bare)

end FM.Spec
