import Verif.Model.Ast.Node
import Verif.Model.Config

/-!
# Visitors (visitors.rs, ast/visitors.rs, ast/luau_visitors.rs, full-moon-derive/src/visit.rs)

`Visitor` is modelled by the sequence of hooks it receives.  A `VisitorMut` is modelled by its hooks, with their own
state (`MutVisitor`); a visitor that overrides only hooks on tokens (`visit_token`, `visit_token_reference`, `visit_eof`
and the hooks per kind of token) is a `TokenVisitor`.
-/

namespace FM

/-! ## Immutable visitors -/

/-- A call of a hook of `Visitor`. -/
inductive Ev where
  /-- `visit_x` and `visit_x_end` for a node type `x`; the node itself is not recorded -/
  | enter (c : Cat)
  | leave (c : Cat)
  /-- `visit_contained_span` and its `_end` -/
  | enterSpan
  | leaveSpan
  /-- `visit_token` -/
  | token (t : Token)
  /-- `visit_identifier`, `visit_symbol`, ..., by the kind of the token -/
  | tokenKind (t : Token)
  /-- `visit_eof` -/
  | eof (t : TokRef)
  deriving Repr, DecidableEq

/-- Kinds of tokens without a hook of their own (tokenizer/structs.rs 543–557). -/
def TokenType.noHook : TokenType → Bool
  | .eof | .shebang _ => true
  | _ => false

/-- `Visit for Token` (tokenizer/structs.rs 538–560). -/
def Token.visit (t : Token) : List Ev :=
  .token t :: (if t.type.noHook then [] else [.tokenKind t])

/-- `Visit for TokenReference` (tokenizer/structs.rs 822–834). -/
def TokRef.visit (t : TokRef) : List Ev :=
  .token t.token :: (if t.token.type = .eof then [.eof t] else []) ++
    t.leading.flatMap Token.visit ++ t.token.visit ++ t.trailing.flatMap Token.visit

/-- The order in which `Visit` walks the fields (derived: full-moon-derive/src/visit.rs 98–135, 211–253; written out:
ast/visitors.rs 13–47, 94–158, 234–252, 285–305, 337–371, 439–477, 552–581, 637–656 and ast/luau_visitors.rs 12–113,
277–317, 321–339, 371–384, 410–418): as printed, except that lists of names with annotations are
walked without their commas (ast/visitors.rs 361–364, 469–473, 569–572) and `TypeInstantiation` visits its
inner `<` twice (ast/luau_visitors.rs 409–419). -/
def Kind.visitLayout (k : Kind) : Option (List Slot) :=
  match k with
  | .funcBody => some [.child 0, .opening 1, .bareNames 2 none 3, .closing 1, .child 4, .child 5, .child 6]
  | .genericFor => some [.child 0, .bareNames 1 none 7, .child 2, .child 3, .child 4, .child 5, .child 6]
  | .localAssignment => some [.child 0, .bareNames 2 (some 3) 1, .child 4, .child 5]
  | .typeInst => some [.opening 0, .opening 1, .child 2, .opening 1, .closing 0]
  | k => k.layout

/-- Hooks before and after the fields (full-moon-derive/src/visit.rs 98–135): none for `BinOp`
(ast/mod.rs 2293), `InterpolatedStringSegment` (ast/luau.rs 1173–1178) and the containers. -/
def Kind.hook : Kind → Option (Ev × Ev)
  | .binOp _ | .interpSegment => none
  | .span => some (.enterSpan, .leaveSpan)
  | k => k.cat.map fun c => (.enter c, .leave c)

/-- The hooks of a node, given those of its fields. -/
def Kind.visit (k : Kind) (rs : List (R Ev)) : List Ev :=
  match k.hook with
  | some (a, b) => a :: arrange k.visitLayout rs ++ [b]
  | none => arrange k.visitLayout rs

/-- `Visit::visit` (visitors.rs 164): the hooks called, in order.  References, boxes, vectors, options and pairs visit what
they hold (visitors.rs 176–207, 218–222, 231–233), as do `Punctuated` and `Pair` (ast/punctuated.rs 233–243, 475–500). -/
def Node.visit (n : Node) : List Ev := (n.fold TokRef.visit Kind.visit).all

/-- `Visitor::visit_ast` (visitors.rs 53–56). -/
def Ast.visit (a : Ast) : List Ev := a.nodes.visit ++ a.eof.visit

/-! ## Mutable visitors -/

/-- A `VisitorMut` with state `σ` that overrides hooks on tokens only (visitors.rs 93–153). -/
structure TokenVisitor (σ : Type) where
  /-- `visit_token_reference` -/
  reference : TokRef → StateM σ TokRef := pure
  /-- `visit_eof` -/
  eof : TokRef → StateM σ TokRef := pure
  /-- `visit_token` -/
  token : Token → StateM σ Token := pure
  /-- `visit_identifier`, `visit_symbol`, ... -/
  tokenKind : Token → StateM σ Token := pure

variable {σ : Type}

/-- `VisitMut for Token` (tokenizer/structs.rs 562–584). -/
def Token.visitMut (v : TokenVisitor σ) (t : Token) : StateM σ Token := do
  let t ← v.token t
  if t.type.noHook then pure t else v.tokenKind t

/-- `VisitMut for Vec` (visitors.rs 195–201). -/
def visitTokens (v : TokenVisitor σ) : List Token → StateM σ (List Token)
  | [] => pure []
  | t :: ts => do
    let t ← t.visitMut v
    let ts ← visitTokens v ts
    pure (t :: ts)

/-- `VisitMut for TokenReference` (tokenizer/structs.rs 836–849). -/
def TokRef.visitMut (v : TokenVisitor σ) (t : TokRef) : StateM σ TokRef := do
  let t ← v.reference t
  let t ← if t.token.type = .eof then v.eof t else pure t
  let leading ← visitTokens v t.leading
  let token ← t.token.visitMut v
  let trailing ← visitTokens v t.trailing
  pure ⟨leading, token, trailing⟩

/-- What a rebuild needs to know of a child: how to visit it, its children and its grandchildren. -/
structure Vm (σ : Type) where
  go : StateM σ Node
  parts : List (StateM σ Node)
  parts2 : List (List (StateM σ Node))

/-- `None`. -/
def Node.none : Node := .node .absent []
/-- `Some(n)`. -/
def Node.some (n : Node) : Node := .node .present [n]

/-- The `i`-th action; `None` if there is none. -/
def action : List (StateM σ Node) → Nat → StateM σ Node
  | [], _ => pure .none
  | a :: _, 0 => a
  | _ :: as, i + 1 => action as i

/-- Rebuild the pairs of a list of names, their first and their second annotations
(ast/visitors.rs 401–416, 514–533, 604–619). -/
def rebuildNames : (pairs : List (List (StateM σ Node))) → (first second : List (StateM σ Node)) →
    StateM σ (List Node × List Node × List Node)
  | [], _, _ => pure ([], [], [])
  | p :: ps, as, bs => do
    let name ← action p 0
    let a ← action as 0
    let b ← action bs 0
    let pair ← match p with
      | [_] => pure (Node.node .pairEnd [name])
      | _ => do
        let comma ← action p 1
        pure (Node.node .pairPunct [name, comma])
    let (ps, as, bs) ← rebuildNames ps as.tail bs.tail
    pure (pair :: ps, a :: as, b :: bs)

/-- Visit all children in declaration order. -/
def goAll : List (Vm σ) → StateM σ (List Node)
  | [] => pure []
  | v :: vs => do
    let n ← v.go
    let ns ← goAll vs
    pure (n :: ns)

/-- The annotation field of a list of names: present only if its feature is compiled in. -/
def annotations (compiled : Bool) (ns : List Node) : Node := .node .vec (if compiled then ns else [])

def Node.spanOf (o c : Node) : Node := .node .span [o, c]

/-- `VisitMut` of a node, from that of its fields: ast/visitors.rs, ast/luau_visitors.rs and
full-moon-derive/src/visit.rs 53–91 (`contains`). -/
def rebuildNode (f : Features) (k : Kind) (vs : List (Vm σ)) : StateM σ Node :=
  match k, vs with
  -- ast/visitors.rs 50–91
  | .fieldExprKey, [b, key, equal, value] => do
    let o ← action b.parts 0
    let key ← key.go
    let c ← action b.parts 1
    let equal ← equal.go
    let value ← value.go
    pure (.node .fieldExprKey [.spanOf o c, key, equal, value])
  -- a span around one field: ast/mod.rs 236–239 (TableConstructor), ast/visitors.rs 178–191 (Parentheses),
  -- 262–276 (Brackets), 314–326 (FunctionArgs), ast/lua54.rs 16–19 (Attribute), ast/luau.rs 579–581
  -- (GenericDeclaration), ast/luau_visitors.rs 213–222 (Table), 240–249 (Tuple), 391–403 (IndexSignature)
  | .tableCtor, [b, x] | .exprParens, [b, x] | .indexBrackets, [b, x] | .argsParens, [b, x] | .attribute, [b, x]
  | .genericDecl, [b, x] | .tyTable, [b, x] | .tyTuple, [b, x] | .keyIndex, [b, x] => do
    let o ← action b.parts 0
    let x ← x.go
    let c ← action b.parts 1
    pure (.node k [.spanOf o c, x])
  -- ast/luau_visitors.rs 120–137
  | .tyArray, [b, access, x] => do
    let o ← action b.parts 0
    let access ← access.go
    let x ← x.go
    let c ← action b.parts 1
    pure (.node .tyArray [.spanOf o c, access, x])
  -- ast/luau_visitors.rs 141–163
  | .tyCallback, [generics, b, arguments, arrow, ret] => do
    let generics ← generics.go
    let o ← action b.parts 0
    let arguments ← arguments.go
    let c ← action b.parts 1
    let arrow ← arrow.go
    let ret ← ret.go
    pure (.node .tyCallback [generics, .spanOf o c, arguments, arrow, ret])
  -- ast/luau_visitors.rs 165–180, 224–238, 347–362
  | .tyGeneric, [base, b, x] | .idxGeneric, [base, b, x] | .tyTypeof, [base, b, x] => do
    let base ← base.go
    let o ← action b.parts 0
    let x ← x.go
    let c ← action b.parts 1
    pure (.node k [base, .spanOf o c, x])
  -- ast/luau_visitors.rs 421–431
  | .typeInst, [outer, inner, types] => do
    let o ← action outer.parts 0
    let i ← action inner.parts 0
    let types ← types.go
    let j ← action inner.parts 1
    let p ← action outer.parts 1
    pure (.node .typeInst [.spanOf o p, .spanOf i j, types])
  -- ast/visitors.rs 374–436
  | .funcBody, [generics, b, params, types, ret, block, end_] => do
    let generics ← generics.go
    let o ← action b.parts 0
    let (params, _, types) ← rebuildNames params.parts2 [] types.parts
    let c ← action b.parts 1
    let ret ← ret.go
    let block ← block.go
    let end_ ← end_.go
    pure (.node .funcBody [generics, .spanOf o c, .node .punct params, annotations f.luau types, ret, block, end_])
  -- ast/visitors.rs 480–549
  | .localAssignment, [local_, types, names, attributes, equal, exprs] => do
    let local_ ← local_.go
    let (names, attributes, types) ← rebuildNames names.parts2 attributes.parts types.parts
    let equal ← equal.go
    let exprs ← exprs.go
    pure (.node .localAssignment [local_, annotations f.luau types, .node .punct names,
      annotations f.lua54 attributes, equal, exprs])
  -- ast/visitors.rs 584–634
  | .genericFor, [for_, names, in_, exprs, do_, block, end_, types] => do
    let for_ ← for_.go
    let (names, _, types) ← rebuildNames names.parts2 [] types.parts
    let in_ ← in_.go
    let exprs ← exprs.go
    let do_ ← do_.go
    let block ← block.go
    let end_ ← end_.go
    pure (.node .genericFor [for_, .node .punct names, in_, exprs, do_, block, end_, annotations f.luau types])
  -- ast/visitors.rs 659–683
  | .numericFor, [for_, index, equal, start, comma, stop, comma2, step, do_, block, end_, type] => do
    let for_ ← for_.go
    let index ← index.go
    let type ← type.go
    let equal ← equal.go
    let start ← start.go
    let comma ← comma.go
    let stop ← stop.go
    let comma2 ← comma2.go
    let step ← step.go
    let do_ ← do_.go
    let block ← block.go
    let end_ ← end_.go
    pure (.node .numericFor [for_, index, equal, start, comma, stop, comma2, step, do_, block, end_, type])
  | k, vs => do
    let ns ← goAll vs
    pure (.node k ns)

/-- A `VisitorMut` with state `σ` (visitors.rs 93–153, hooks 242–345).  A hook `visit_x` sees the node and
may change the state, but not the node; a hook `visit_x_end` may change the node.  Those whose `visit_x` hooks change nodes
are in VisitChanging.lean. -/
structure MutVisitor (σ : Type) extends TokenVisitor σ where
  /-- `visit_x` -/
  enter : Ev → Node → StateM σ Unit := fun _ _ => pure ()
  /-- `visit_x_end` -/
  leave : Ev → Node → StateM σ Node := fun _ n => pure n

/-- The hooks around the parts of a node (full-moon-derive/src/visit.rs 175–206 and the impls of ast/visitors.rs and
ast/luau_visitors.rs), in the same types as for `Visit`. -/
def MutVisitor.around (v : MutVisitor σ) (k : Kind) (n : Node) (parts : StateM σ Node) : StateM σ Node :=
  match k.hook with
  | some (a, b) => do
    v.enter a n
    let n ← parts
    v.leave b n
  | none => parts

mutual
/-- `VisitMut::visit_mut`. -/
def Node.visitVm (f : Features) (v : MutVisitor σ) : Node → Vm σ
  | .tok t => ⟨do let t ← t.visitMut v.toTokenVisitor; pure (.tok t), [], []⟩
  | .node k cs => ⟨v.around k (.node k cs) (rebuildNode f k (Node.visitVms f v cs)), (Node.visitVms f v cs).map Vm.go,
      (Node.visitVms f v cs).map Vm.parts⟩
def Node.visitVms (f : Features) (v : MutVisitor σ) : List Node → List (Vm σ)
  | [] => []
  | c :: cs => Node.visitVm f v c :: Node.visitVms f v cs
end

/-- `VisitMut::visit_mut`. -/
def Node.visitMutWith (f : Features) (v : MutVisitor σ) (n : Node) : StateM σ Node := (n.visitVm f v).go

/-- `VisitMut::visit_mut` for a visitor that overrides hooks on tokens only. -/
def Node.visitMut (f : Features) (v : TokenVisitor σ) (n : Node) : StateM σ Node := n.visitMutWith f { v with }

/-- `VisitorMut::visit_ast` (visitors.rs 97–107): the eof token only passes through `visit_eof`. -/
def Ast.visitMut (f : Features) (v : TokenVisitor σ) (a : Ast) : StateM σ Ast := do
  let nodes ← a.nodes.visitMut f v
  let eof ← v.eof a.eof
  pure ⟨nodes, eof⟩

/-! ## `update_positions` (ast/update_positions.rs) -/

/-- `UpdatePositionsRewriter` (ast/update_positions.rs 8–11). -/
structure Rewriter where
  start : Position
  nextIsNewLine : Bool
  deriving Repr, DecidableEq

/-- The loop over the characters of a token (ast/update_positions.rs 20–34). -/
def updateChars : List Char → Position → Bool → Position × Bool
  | [], p, nl => (p, nl)
  | ch :: cs, p, nl =>
    let p := if nl then { p with line := p.line + 1, character := 1 } else p
    let nl := ch == '\n'
    let p := if nl then p else { p with character := p.character + 1 }
    updateChars cs { p with bytes := p.bytes + ch.utf8Size } nl

/-- `update_token` (ast/update_positions.rs 14–52). -/
def updateToken (t : Token) : StateM Rewriter Token := do
  let s ← get
  let (stop, nl) := if t.type = .eof then (s.start, s.nextIsNewLine) else updateChars t.display s.start s.nextIsNewLine
  set (Rewriter.mk (if nl then { stop with line := stop.line + 1, character := 1 } else stop) false)
  pure ⟨s.start, stop, t.type⟩

def updateTokens : List Token → StateM Rewriter (List Token)
  | [] => pure []
  | t :: ts => do
    let t ← updateToken t
    let ts ← updateTokens ts
    pure (t :: ts)

/-- `visit_token_reference` of the rewriter (ast/update_positions.rs 55–69). -/
def updateReference (t : TokRef) : StateM Rewriter TokRef := do
  let leading ← updateTokens t.leading
  let token ← updateToken t.token
  let trailing ← updateTokens t.trailing
  pure ⟨leading, token, trailing⟩

/-- `Ast::update_positions` (ast/update_positions.rs 74–86). -/
def Ast.updatePositions (f : Features) (a : Ast) : Ast :=
  (a.visitMut f { reference := updateReference } ⟨⟨0, 1, 1⟩, false⟩).1

end FM
