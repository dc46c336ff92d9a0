import Verif.Spec.Grammar

/-! The grammar of Luau, second part: which reading is meant.

The productions of `Verif.Spec.Grammar` allow more than one tree for some token sequences of Luau, like `x :: T < y`, and
some trees that the parser documents as unsupported, like `() | T`. `Chosen` is the condition, node by node, under which
a tree is the one that is read. Nothing here applies to programs of other versions. -/

namespace FM.Spec
open FM

/-- The values of a separated list. -/
def elements (list : Node) : List Node := list.children.filterMap fun pair => pair.children.head?

/-- The node has one of these kinds. -/
def isOne (ks : List Kind) (n : Node) : Bool := (kindOf n).any fun k => ks.contains k

/-- The token is the name `x`. -/
def tokenNamed (x : Text) (t : TokRef) : Bool := t.token.type == .identifier x

/-- The first token of the node satisfies `p`. -/
def startsTok (p : TokRef → Bool) (n : Node) : Bool := n.flat.head?.any p

/-- The token is the symbol `s`. -/
def tokenIs (s : Symbol) (t : TokRef) : Bool := t.token.type == .symbol s

/-! ## Types -/

/-- `...T` or `T...`. -/
def variadic (n : Node) : Bool := isOne [.tyVariadic, .tyGenericPack] n

/-- A parenthesised list of types other than exactly one. -/
def list? : Node → Bool
  | .node .tyTuple [_, types] => (elements types).length != 1
  | _ => false

/-- A parenthesised list that is not one type in parentheses. -/
def pack? : Node → Bool
  | .node .tyTuple [_, types] => match elements types with
    | [t] => isOne [.tyVariadic] t
    | _ => true
  | _ => false

/-- The type at the left end: `A` in `A?`, `A | B` and `A & B`. -/
def firstType : Node → Node
  | .node .tyOptional [t, _] => firstType t
  | .node .tyUnion [.node .typeUnion [.node .absent _, .node .punct (.node _ (t :: _) :: _)]] => firstType t
  | .node .tyIntersection [.node .typeIntersection [.node .absent _, .node .punct (.node _ (t :: _) :: _)]] => firstType t
  | n => n

/-- What is a type where one type is expected: `...T`, `T...`, `()` and `(A, B)` are not. -/
def single (n : Node) : Bool := !variadic n && !pack? (firstType n)

/-- The type starts with `|` or `&`. -/
def led : Node → Bool
  | .node .tyUnion [.node .typeUnion [lead, _]] => !isOne [.absent] lead
  | .node .tyIntersection [.node .typeIntersection [lead, _]] => !isOne [.absent] lead
  | _ => false

/-- A function type whose result would take a following `?`, `|` or `&`. -/
def openCallback : Node → Bool
  | .node .tyCallback [_, _, _, _, result] => !isOne [.tyGenericPack] result && !list? result
  | _ => false

/-- The type ends with a name, to which a following `<` would apply. -/
def endsName : Node → Bool
  | .node .tyBasic [.tok t] => t.token.type.kind == .identifier
  | .node .tyModule [_, _, .node .idxBasic _] => true
  | .node .tyCallback [_, _, _, _, result] => endsName result
  | .node .tyUnion [.node .typeUnion [_, .node .punct pairs]] => lastEnds pairs
  | .node .tyIntersection [.node .typeIntersection [_, .node .punct pairs]] => lastEnds pairs
  | .node .tyVariadic [_, t] => endsName t
  | _ => false
where
  lastEnds : List Node → Bool
    | [] => false
    | [.node _ (t :: _)] => endsName t
    | _ :: pairs => lastEnds pairs

/-- The members of a union or an intersection. -/
structure Members (lead list : Node) : Prop where
  /-- They are neither unions nor intersections, nor lists of types. -/
  plain : ∀ m ∈ elements list, isOne [.tyUnion, .tyIntersection] m = false ∧ list? m = false
  /-- The result of a function ends before the next separator. -/
  closed : ∀ m ∈ (elements list).dropLast, openCallback m = false
  /-- All but the first are single types. -/
  rest : ∀ m ∈ (elements list).tail, single m = true
  /-- The first is one too, or the list does not start with a separator. -/
  first : isOne [.absent] lead = false → ∀ m ∈ elements list, single m = true
  /-- There are at least two, or the list starts with a separator. -/
  two : isOne [.absent] lead = true → 2 ≤ (elements list).length

/-- The type of an optional type specifier. -/
def specType : Node → Option Node
  | .node .present [.node .typeSpec [_, t]] => some t
  | _ => none

/-- The type specifiers of a list have single types. -/
def singles (specs : Node) : Prop := ∀ s ∈ specs.children, ∀ t, specType s = some t → single t = true

/-- The parameters of a declaration `<A, B...>`. -/
def genericParams : Node → List Node
  | .node .present [.node .genericDecl [_, list]] => elements list
  | _ => []

/-- A parameter `A...`. -/
def packParam : Node → Bool
  | .node .genericDeclParam [p, _] => isOne [.genericVariadic] p
  | _ => false

/-- A parameter with a default. -/
def hasDefault : Node → Bool
  | .node .genericDeclParam [_, d] => !isOne [.absent] d
  | _ => false

/-- The type of an argument of a function type, and whether it has no name. -/
def argType : Node → Option (Node × Bool)
  | .node .typeArg [name, t] => some (t, isOne [.absent] name)
  | _ => none

/-- A field `[K]: V`, where `K` is not a string. -/
def indexer : Node → Bool
  | .node .typeField [_, .node .keyIndex [_, k], _, _] => !isOne [.tyString] k
  | _ => false

/-! ## Expressions -/

/-- Followed by `::`, the expression takes it. -/
def asserts : Node → Bool
  | .node .exprAssertion _ => false
  | .node .exprBinary [_, _, r] => asserts r
  | _ => true

/-- Followed by `::`, a part of the expression takes it. -/
def innerAsserts : Node → Bool
  | .node .exprUnary [_, e] => asserts e
  | .node .exprIf [.node .ifExpr [_, _, _, _, _, _, e]] => asserts e
  | _ => false

/-- The type at the right end of an expression. -/
def lastType : Node → Option Node
  | .node .exprAssertion [_, .node .typeAssertion [_, t]] => some t
  | .node .exprBinary [_, _, r] => lastType r
  | .node .exprUnary [_, e] => lastType e
  | .node .exprIf [.node .ifExpr [_, _, _, _, _, _, e]] => lastType e
  | _ => none

/-- The last expression of a list would take a following `::`. -/
def lastAsserts (exprs : Node) : Bool :=
  match exprs.children.getLast? with
  | some pair => pair.children.head?.any asserts
  | none => false

/-- Followed by `::`, the statement takes it. -/
def endsAsserts : Node → Bool
  | .node .stmtAssignment [.node .assignment [_, _, exprs]] => lastAsserts exprs
  | .node .stmtLocalAssignment [.node .localAssignment [_, _, _, _, _, exprs]] => lastAsserts exprs
  | .node .stmtCompound [.node .compoundAssignment [_, _, e]] => asserts e
  | .node .stmtRepeat [.node .repeatBlock [_, _, _, e]] => asserts e
  | _ => false

/-- Of two consecutive statements, the second is not taken for an assertion that ends the first. -/
def unasserted : Node → Node → Prop
  | .node .tuple [s, semicolon], next => kindOf semicolon = some .absent → endsAsserts s = true → startsTok (tokenIs .twoColons) next = false
  | _, _ => True

/-- So are all consecutive statements of a list. -/
def unasserteds : List Node → Prop
  | s :: s' :: rest => unasserted s s' ∧ unasserteds (s' :: rest)
  | _ => True

/-! ## The condition -/

/-- The node is the one that is read where more than one could be, given that its parts are. -/
def Chosen : Kind → List Node → Prop
  | .tyOptional, [t, _] => isOne [.tyUnion, .tyIntersection] t = false ∧ openCallback t = false ∧ list? t = false
  | .typeUnion, [lead, list] => Members lead list
  | .typeIntersection, [lead, list] => Members lead list ∧ ∀ m ∈ elements list, isOne [.tyOptional] m = false
  | .tyBasic, [t] => startsTok (tokenNamed c!"typeof") t = false
  | .tyModule, [t, _, _] => startsTok (tokenNamed c!"typeof") t = false
  | .tyGeneric, [t, _, types] => startsTok (tokenNamed c!"typeof") t = false ∧ ∀ m ∈ elements types, led m = false
  | .idxGeneric, [_, _, types] => ∀ m ∈ elements types, led m = false
  | .typeInst, [_, _, types] => ∀ m ∈ elements types, led m = false
  | .tyTuple, [_, types] => (∀ m ∈ (elements types).dropLast, single m = true) ∧
      ∀ m, (elements types).getLast? = some m → single m = true ∨ variadic m = true
  | .tyCallback, [generics, _, args, _, result] => (∀ p ∈ genericParams generics, hasDefault p = false) ∧ led result = false ∧
      (∀ m ∈ (elements args).dropLast, ∀ t b, argType m = some (t, b) → single t = true) ∧
      ∀ m, (elements args).getLast? = some m → ∀ t b, argType m = some (t, b) → single t = true ∨ b = true ∧ variadic t = true
  | .tyVariadic, [_, t] => single t = true
  | .tyArray, [_, access, t] => single t = true ∧
      (isOne [.absent] access = true → startsTok (fun x => tokenNamed c!"read" x || tokenNamed c!"write" x) t = false)
  | .tyTable, [_, fields] => ((elements fields).filter indexer).length ≤ 1
  | .typeField, [_, _, _, t] => single t = true
  | .keyIndex, [_, t] => single t = true ∧ (startsTok (fun x => x.token.type.kind == .stringLiteral) t = true → isOne [.tyString] t = true)
  | .typeAssertion, [_, t] => single t = true
  | .typeDecl, [_, _, _, _, t] => single t = true
  | .genericDecl, [_, list] => (elements list).Pairwise fun a b => (packParam a = true → packParam b = true) ∧ (hasDefault a = true → hasDefault b = true)
  | .genericDeclParam, [p, .node .present [.node .tuple [_, t]]] => (isOne [.genericName] p = true → single t = true) ∧
      (isOne [.genericVariadic] p = true → isOne [.tyVariadic, .tyGenericPack, .tyTuple] t = true)
  | .funcBody, [generics, _, params, types, result, _, _] => (∀ p ∈ genericParams generics, hasDefault p = false) ∧
      (∀ p ∈ params.children.zip types.children, ∀ t, specType p.2 = some t →
        single t = true ∨ namedParam p.1 = false ∧ isOne [.tyGenericPack] t = true) ∧
      ∀ t, specType result = some t → led t = false
  | .localAssignment, [_, types, _, attributes, _, _] => singles types ∧
      ∀ p ∈ types.children.zip attributes.children, isOne [.absent] p.1 = true ∨ isOne [.absent] p.2 = true
  | .genericFor, [_, _, _, _, _, _, _, types] => singles types
  | .numericFor, [_, _, _, _, _, _, _, _, _, _, _, spec] => ∀ t, specType spec = some t → single t = true
  | .exprAssertion, [e, _] => isOne [.exprBinary, .exprAssertion] e = false ∧ innerAsserts e = false
  | .exprBinary, [l, o, _] => ∀ t, lastType l = some t →
      opText o ≠ c!"|" ∧ opText o ≠ c!"&" ∧ (opText o = c!"<" → endsName t = false)
  | .interpSegment, [.tok t, e] => t.trailing = [] → startsTok (tokenIs .leftBrace) e = false
  | .block, [stmts, _] => unasserteds stmts.children
  | _, _ => True

/-- The block ends with `return`, without values and without a semicolon: a name after it would be its value. -/
def openReturn : Node → Bool
  | .node .block [_, .node .present [.node .tuple [.node .lastReturn [.node .ret [_, .node .punct []]], .node .absent []]]] => true
  | _ => false

/-- A superfluous last statement after the given block, in Luau with the reading that is meant. -/
def Superfluous (c : Cfg) (block : Node) (ts : List TokRef) : Prop :=
  ∃ n semicolon, Conforms c (.pair (.cat .lastStmt) (.opt (.sym .semicolon))) (.node .tuple [n, semicolon]) ∧
    (Node.node .tuple [n, semicolon]).flat = ts ∧ (isOne [.lastContinue] n = true → openReturn block = false) ∧
    (c.has .luau = true → (Node.node .tuple [n, semicolon]).Every Chosen)

end FM.Spec
