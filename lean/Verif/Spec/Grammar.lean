import Verif.Model.Ast.Operators
import Verif.Spec.Trees
import Verif.Spec.Operators

/-!
# Specification: the grammar (C23, C35, C43)

The productions of the Lua manuals and of the Luau grammar as a table: what stands in each field of a node.  Fields
are in declaration order, which is print order except that the two tokens of a `span` stand around what follows
it, and that the types and attributes of names stand after their names.
-/

namespace FM.Spec

/-- Terminals. -/
inductive Term where
  /-- one of these symbols -/
  | sym (ss : List Symbol)
  /-- an identifier -/
  | name
  /-- an identifier or `nil` -/
  | nameOrNil
  /-- one of these words, which are not keywords -/
  | word (ws : List Text)
  | string
  | number
  /-- a section of an interpolated string -/
  | interp
  deriving Repr, DecidableEq

/-- The token is one of the terminal. -/
def Term.Is : Term → TokRef → Prop
  | .sym ss, t => ∃ s ∈ ss, t.token.type = .symbol s
  | .name, t => ∃ x, t.token.type = .identifier x
  | .nameOrNil, t => (∃ x, t.token.type = .identifier x) ∨ t.token.type = .symbol .kNil
  | .word ws, t => ∃ x ∈ ws, t.token.type = .identifier x
  | .string, t => t.token.type.kind = .stringLiteral
  | .number, t => t.token.type.kind = .number
  | .interp, t => t.token.type.kind = .interpolatedString

/-- What a list looks like: it may be empty; it has at least one element; it may be empty, and end with a
separator. -/
inductive Style where
  | any | nonempty | trailing
  deriving Repr, DecidableEq

/-- Parts of productions. -/
inductive Part where
  | tok (t : Term)
  /-- opening and closing token -/
  | span (opening closing : Symbol)
  /-- a node of this type -/
  | cat (c : Cat)
  /-- a Luau type that is not a pack -/
  | type
  | opt (p : Part)
  | many (p : Part)
  | some (p : Part)
  /-- a separated list -/
  | list (p : Part) (separators : List Symbol) (style : Style)
  | pair (p q : Part)
  deriving Repr, DecidableEq

namespace Part
/-- One symbol. -/
abbrev sym (s : Symbol) : Part := .tok (.sym [s])
abbrev name : Part := .tok .name
abbrev expr : Part := .cat .expr
abbrev block : Part := .cat .block
/-- Expressions separated by commas. -/
abbrev exprs (style : Style) : Part := .list expr [.comma] style
/-- Luau types and packs separated by commas. -/
abbrev types : Part := .list (.cat .typeInfo) [.comma] .any
end Part

/-- The symbol of a unary operator. -/
def unarySymbol : UnOp → Symbol
  | .minus => .minus
  | .not => .kNot
  | .hash => .hash
  | .tilde => .tilde

/-- The symbol of a compound assignment. -/
def compoundSymbol : CompoundOp → Symbol
  | .plusEqual => .plusEqual
  | .minusEqual => .minusEqual
  | .starEqual => .starEqual
  | .slashEqual => .slashEqual
  | .caretEqual => .caretEqual
  | .doubleSlashEqual => .doubleSlashEqual
  | .percentEqual => .percentEqual
  | .twoDotsEqual => .twoDotsEqual
  | .doubleLessThanEqual => .doubleLessThanEqual
  | .doubleGreaterThanEqual => .doubleGreaterThanEqual
  | .ampersandEqual => .ampersandEqual
  | .pipeEqual => .pipeEqual

open Part in
/-- The productions. -/
def production (f : Features) : Kind → List Part
  | .block => [.many (.pair (.cat .stmt) (.opt (sym .semicolon))), .opt (.pair (.cat .lastStmt) (.opt (sym .semicolon)))]
  | .lastBreak => [sym .kBreak]
  | .lastContinue => [.tok (.word [c!"continue"])]
  | .lastReturn => [.cat .ret]
  | .ret => [sym .kReturn, exprs .any]
  | .fieldExprKey => [.span .leftBracket .rightBracket, expr, sym .equal, expr]
  | .fieldNameKey => [name, sym .equal, expr]
  | .fieldSet => [sym .dot, name]
  | .fieldNoKey => [expr]
  | .tableCtor => [.span .leftBrace .rightBrace, .list (.cat .field) [.comma, .semicolon] .trailing]
  | .anonFunc => [.many (.cat .luauAttr), sym .kFunction, .cat .funcBody]
  | .exprBinary => [expr, .cat .binOp, expr]
  | .exprParens => [.span .leftParen .rightParen, expr]
  | .exprUnary => [.cat .unOp, expr]
  | .exprFunction => [.cat .anonFunc]
  | .exprCall => [.cat .functionCall]
  | .exprIf => [.cat .ifExpr]
  | .exprInterp => [.cat .interpString]
  | .exprTable => [.cat .tableCtor]
  | .exprNumber => [.tok .number]
  | .exprString => [.tok .string]
  | .exprSymbol => [.tok (.sym [.kTrue, .kFalse, .kNil, .ellipsis])]
  | .exprAssertion => [expr, .cat .typeAssertion]
  | .exprVar => [.cat .var]
  | .stmtAssignment => [.cat .assignment]
  | .stmtDo => [.cat .doBlock]
  | .stmtCall => [.cat .functionCall]
  | .stmtFunction => [.cat .functionDecl]
  | .stmtGenericFor => [.cat .genericFor]
  | .stmtIf => [.cat .ifBlock]
  | .stmtLocalAssignment => [.cat .localAssignment]
  | .stmtLocalFunction => [.cat .localFunction]
  | .stmtNumericFor => [.cat .numericFor]
  | .stmtRepeat => [.cat .repeatBlock]
  | .stmtWhile => [.cat .whileBlock]
  | .stmtCompound => [.cat .compoundAssignment]
  | .stmtExportedType => [.cat .exportedTypeDecl]
  | .stmtType => [.cat .typeDecl]
  | .stmtExportedTypeFunction => [.cat .exportedTypeFunction]
  | .stmtTypeFunction => [.cat .typeFunction]
  | .stmtGoto => [.cat .gotoStmt]
  | .stmtLabel => [.cat .label]
  | .prefixExpr => [expr]
  | .prefixName => [name]
  | .indexBrackets => [.span .leftBracket .rightBracket, expr]
  | .indexDot => [.tok (.sym (if f.cfxlua then [.dot, .questionMarkDot] else [.dot])), name]
  | .argsParens => [.span .leftParen .rightParen, exprs .any]
  | .argsString => [.tok .string]
  | .argsTable => [.cat .tableCtor]
  | .numericFor => [sym .kFor, name, sym .equal, expr, sym .comma, expr, .opt (sym .comma), .opt expr, sym .kDo, block, sym .kEnd,
      .opt (.cat .typeSpec)]
  | .genericFor => [sym .kFor, .list name [.comma] .nonempty, sym .kIn, exprs .nonempty, sym .kDo, block, sym .kEnd,
      .many (.opt (.cat .typeSpec))]
  | .ifBlock => [sym .kIf, expr, sym .kThen, block, .opt (.some (.cat .elseIf)), .opt (sym .kElse), .opt block, sym .kEnd]
  | .elseIf => [sym .kElseIf, expr, sym .kThen, block]
  | .whileBlock => [sym .kWhile, expr, sym .kDo, block, sym .kEnd]
  | .repeatBlock => [sym .kRepeat, block, sym .kUntil, expr]
  | .methodCall => [sym .colon, name, .opt (.cat .typeInst), .cat .args]
  | .callAnonymous => [.cat .args]
  | .callMethod => [.cat .methodCall]
  | .funcBody => [.opt (.cat .genericDecl), .span .leftParen .rightParen, .list (.cat .param) [.comma] .any,
      .many (.opt (.cat .typeSpec)), .opt (.cat .typeSpec), block, sym .kEnd]
  | .paramEllipsis => [sym .ellipsis]
  | .paramName => [name]
  | .suffixCall => [.cat .call]
  | .suffixIndex => [.cat .index]
  | .suffixTypeInst => [.cat .typeInst]
  | .varExpr => [.cat .prefix, .many (.cat .suffix)]
  | .varExpression => [.cat .varExpr]
  | .varName => [name]
  | .assignment => [.list (.cat .var) [.comma] .nonempty, sym .equal, exprs .nonempty]
  | .localFunction => [.many (.cat .luauAttr), sym .kLocal, sym .kFunction, name, .cat .funcBody]
  | .localAssignment => [sym .kLocal, .many (.opt (.cat .typeSpec)), .list name [.comma] .nonempty,
      .many (.opt (.cat .attribute)), .opt (.tok (.sym (if f.cfxlua then [.equal, .kIn] else [.equal]))), exprs .any]
  | .doBlock => [sym .kDo, block, sym .kEnd]
  | .functionCall => [.cat .prefix, .many (.cat .suffix)]
  | .functionName => [.list name [.dot] .nonempty, .opt (.pair (sym .colon) name)]
  | .functionDecl => [.many (.cat .luauAttr), sym .kFunction, .cat .functionName, .cat .funcBody]
  | .binOp o => [sym o.symbol]
  | .unOp o => [sym (unarySymbol o)]
  | .attribute => [.span .lessThan .greaterThan, name]
  | .gotoStmt => [sym .kGoto, name]
  | .label => [sym .twoColons, name, sym .twoColons]
  | .compoundAssignment => [.cat .var, .cat .compoundOp, expr]
  | .compoundOp o => [sym (compoundSymbol o)]
  | .tyArray => [.span .leftBrace .rightBrace, .opt (.tok (.word [c!"read", c!"write"])), .type]
  | .tyBasic => [.tok .nameOrNil]
  | .tyString => [.tok .string]
  | .tyBoolean => [.tok (.sym [.kTrue, .kFalse])]
  | .tyCallback => [.opt (.cat .genericDecl), .span .leftParen .rightParen, .list (.cat .typeArg) [.comma] .any, sym .thinArrow,
      .cat .typeInfo]
  | .tyGeneric => [name, .span .lessThan .greaterThan, types]
  | .tyGenericPack => [name, sym .ellipsis]
  | .tyIntersection => [.cat .typeIntersection]
  | .tyModule => [name, sym .dot, .cat .indexedType]
  | .tyOptional => [.type, sym .questionMark]
  | .tyTable => [.span .leftBrace .rightBrace, .list (.cat .typeField) [.comma, .semicolon] .trailing]
  | .tyTypeof => [.tok (.word [c!"typeof"]), .span .leftParen .rightParen, expr]
  | .tyTuple => [.span .leftParen .rightParen, types]
  | .tyUnion => [.cat .typeUnion]
  | .tyVariadic => [sym .ellipsis, .type]
  | .tyVariadicPack => [sym .ellipsis, name]
  | .typeUnion => [.opt (sym .pipe), .list .type [.pipe] .nonempty]
  | .typeIntersection => [.opt (sym .ampersand), .list .type [.ampersand] .nonempty]
  | .idxBasic => [name]
  | .idxGeneric => [name, .span .lessThan .greaterThan, types]
  | .typeField => [.opt (.tok (.word [c!"read", c!"write"])), .cat .typeFieldKey, sym .colon, .type]
  | .keyName => [name]
  | .keyIndex => [.span .leftBracket .rightBracket, .type]
  | .typeAssertion => [sym .twoColons, .type]
  | .typeDecl => [.tok (.word [c!"type"]), name, .opt (.cat .genericDecl), sym .equal, .type]
  | .genericName => [name]
  | .genericVariadic => [name, sym .ellipsis]
  | .genericDeclParam => [.cat .genericParam, .opt (.pair (sym .equal) (.cat .typeInfo))]
  | .genericDecl => [.span .lessThan .greaterThan, .list (.cat .genericDeclParam) [.comma] .nonempty]
  | .typeSpec => [sym .colon, .cat .typeInfo]
  | .typeArg => [.opt (.pair name (sym .colon)), .cat .typeInfo]
  | .exportedTypeDecl => [.tok (.word [c!"export"]), .cat .typeDecl]
  | .typeFunction => [.tok (.word [c!"type"]), sym .kFunction, name, .cat .funcBody]
  | .exportedTypeFunction => [.tok (.word [c!"export"]), .cat .typeFunction]
  | .ifExpr => [sym .kIf, expr, sym .kThen, expr, .opt (.some (.cat .elseIfExpr)), sym .kElse, expr]
  | .elseIfExpr => [sym .kElseIf, expr, sym .kThen, expr]
  | .interpString => [.many (.cat .interpSegment), .tok .interp]
  | .interpSegment => [.tok .interp, expr]
  | .luauAttr => [sym .atSign, name]
  | .typeInst => [.span .lessThan .greaterThan, .span .lessThan .greaterThan, types]
  | .absent | .present | .vec | .tuple | .punct | .pairEnd | .pairPunct | .span => []

/-- Luau only. -/
def luauKinds : List Kind :=
  [.lastContinue, .exprIf, .exprInterp, .exprAssertion, .stmtExportedType, .stmtType, .stmtExportedTypeFunction,
   .stmtTypeFunction, .suffixTypeInst, .typeInst, .genericDecl, .typeSpec]

/-- The versions in which a construct exists. -/
def available (c : Cfg) : Kind → Bool
  | .stmtGoto | .stmtLabel => c.lua52 || c.luajit
  | .attribute => c.lua54 || c.cfxlua
  | .fieldSet => c.feat.cfxlua
  | .luauAttr => c.feat.luau
  | .stmtCompound => c.luau || c.cfxlua
  | .binOp o => c.hasAny o.gates
  | .unOp .tilde => c.lua53
  | .tyVariadicPack => false
  | k => !luauKinds.contains k || c.luau

/-! ## Operators -/

/-- What stands at the end of an expression, outside brackets. -/
inductive Edge where
  | binary (op : Text)
  | unary
  /-- an `if` expression, which extends as far as possible -/
  | open_
  deriving Repr, DecidableEq

/-- The text of an operator node. -/
def opText (n : Node) : Text := n.flat.flatMap fun t => t.token.display

/-- The binary operators on the left edge of an expression. -/
def leftEdge : Node → List Text
  | .node .exprBinary [l, o, _] => opText o :: leftEdge l
  | _ => []

/-- The operators on the right edge of an expression. -/
def rightEdge : Node → List Edge
  | .node .exprBinary [_, o, r] => .binary (opText o) :: rightEdge r
  | .node .exprUnary [_, e] => .unary :: rightEdge e
  | .node .exprIf _ => [.open_]
  | _ => []

/-- Right associative operators. -/
def rightAssociative (op : Text) : Bool := op == c!".." || op == c!"^"

/-- An operator at the right edge of the left operand of `op` keeps its operand. -/
def keepsLeft (op : Text) : Edge → Prop
  | .binary p => row op < row p ∨ row op = row p ∧ rightAssociative op = false
  | .unary => row op < unaryRow
  | .open_ => False

/-- An operator at the left edge of the right operand of `op` keeps its operand. -/
def keepsRight (op p : Text) : Prop := row op < row p ∨ row op = row p ∧ rightAssociative op = true

/-! ## Other conditions -/

/-- The kind of a node. -/
def kindOf : Node → Option Kind
  | .tok _ => none
  | .node k _ => some k

/-- The sections of an interpolated string. -/
def section? (n : Node) : Option InterpKind :=
  match n with
  | .tok t => match t.token.type with
    | .interpolated _ k => some k
    | _ => none
  | .node .interpSegment (.tok t :: _) => match t.token.type with
    | .interpolated _ k => some k
    | _ => none
  | _ => none

/-- A parameter, with its comma, other than `...`. -/
def namedParam (pair : Node) : Bool := pair.children.head?.bind kindOf == some .paramName

/-- A parenthesised expression as a variable. -/
def parenthesised : Node → Bool
  | .node .varExpression [.node .varExpr [_, suffixes]] => suffixes.children.isEmpty
  | _ => false

/-! ## Consecutive statements

Where a statement that starts with `(` follows one whose last expression could be called, as in `f` newline `(g)()`, the
parenthesis starts the arguments of a call (manual, 3.3.1). -/

/-- The expression ends with a variable, a call or a parenthesised expression, to which a following `(` would apply. -/
def callable : Node → Bool
  | .node .exprBinary [_, _, r] => callable r
  | .node .exprUnary [_, e] => callable e
  | .node .exprIf [.node .ifExpr [_, _, _, _, _, _, e]] => callable e
  | .node .exprVar _ | .node .exprCall _ | .node .exprParens _ => true
  | _ => false

/-- The last expression of a list is one. -/
def lastCallable (exprs : Node) : Bool :=
  match exprs.children.getLast? with
  | some pair => pair.children.head?.any callable
  | none => false

/-- The last expression of a statement, if it ends with one, is one. -/
def endsCallable : Node → Bool
  | .node .stmtCall _ => true
  | .node .stmtAssignment [.node .assignment [_, _, exprs]] => lastCallable exprs
  | .node .stmtLocalAssignment [.node .localAssignment [_, _, _, _, _, exprs]] => lastCallable exprs
  | .node .stmtCompound [.node .compoundAssignment [_, _, e]] => callable e
  | .node .stmtRepeat [.node .repeatBlock [_, _, _, e]] => callable e
  | _ => false

/-- The first token is `(`. -/
def startsParen (n : Node) : Bool := n.flat.head?.any fun t => t.token.type == .symbol .leftParen

/-- Of two consecutive statements, each with its semicolon, the second is not taken for arguments of a call that ends the first. -/
def distinct : Node → Node → Prop
  | .node .tuple [s, semicolon], next => kindOf semicolon = some .absent → endsCallable s = true → startsParen next = false
  | _, _ => True

/-- So are all consecutive statements of a list. -/
def distincts : List Node → Prop
  | s :: next :: rest => distinct s next ∧ distincts (next :: rest)
  | _ => True

/-! ## Conditions on nodes -/

/-- Conditions that connect the fields of a node.  A parenthesised expression is not a variable, except on the left of an
assignment.  The lists of annotations have an entry, possibly `None`, per name if the
feature is compiled in; the type of `...` is only listed if Luau is active. -/
def Connected (c : Cfg) : Kind → List Node → Prop
  | .block, [stmts, _] => distincts stmts.children
  | .exprBinary, [l, o, r] => (∀ e ∈ rightEdge l, keepsLeft (opText o) e) ∧ ∀ p ∈ leftEdge r, keepsRight (opText o) p
  | .exprUnary, [_, e] => ∀ p ∈ leftEdge e, unaryRow < row p
  | .exprVar, [v] => parenthesised v = false
  | .prefixExpr, [e] => kindOf e = some .exprParens
  | .functionCall, [_, suffixes] => suffixes.children.getLast?.bind kindOf = some .suffixCall
  | .varExpr, [p, suffixes] => suffixes.children.getLast?.bind kindOf ≠ some .suffixCall ∧
    (suffixes.children = [] → kindOf p = some .prefixExpr)
  | .ifBlock, [_, _, _, _, _, else_, block, _] => kindOf else_ = kindOf block
  | .numericFor, [_, _, _, _, _, _, comma, step, _, _, _, _] => kindOf comma = kindOf step
  | .localAssignment, [_, types, names, attributes, equal, es] => (kindOf equal = some .absent ↔ es.children = []) ∧
    types.children.length = (if c.feat.luau then names.children.length else 0) ∧
    attributes.children.length = (if c.feat.lua54 then names.children.length else 0)
  | .genericFor, [_, names, _, _, _, _, _, types] =>
    types.children.length = if c.feat.luau then names.children.length else 0
  | .funcBody, [_, _, params, types, _, _, _] => (∀ p ∈ params.children.dropLast, namedParam p = true) ∧
    types.children.length = if c.luau then params.children.length else
      if c.feat.luau then (params.children.filter namedParam).length else 0
  | .interpString, [segments, last] =>
    match segments.children with
    | [] => section? last = some .simple
    | s :: ss => section? s = some .begin ∧ (∀ x ∈ ss, section? x ≠ some .end_) ∧ section? last = some .end_
  | _, _ => True

/-- Separators stand between the elements of a list. -/
def Separated (style : Style) (pairs : List Node) : Prop :=
  (∀ p ∈ pairs.dropLast, kindOf p = some .pairPunct) ∧
  (style = .nonempty → pairs ≠ []) ∧
  (style ≠ .trailing → ∀ p, pairs.getLast? = some p → kindOf p = some .pairEnd)

/-- The kinds of packs. -/
def isPack (k : Kind) : Bool := k == .tyVariadic || k == .tyGenericPack || k == .tyVariadicPack

mutual
/-- The node conforms to the grammar, as the given part of a production. -/
def Conforms (c : Cfg) : Part → Node → Prop
  | .tok x, .tok t => x.Is t
  | .span o e, .node .span cs => ConformsAll c [.sym o, .sym e] cs
  | .cat a, .node k cs => k.cat = some a ∧ available c k = true ∧ ConformsAll c (production c.feat k) cs ∧ Connected c k cs
  | .type, .node k cs => k.cat = some .typeInfo ∧ isPack k = false ∧ available c k = true ∧
    ConformsAll c (production c.feat k) cs ∧ Connected c k cs
  | .opt _, .node .absent cs => cs = []
  | .opt p, .node .present cs => ConformsAll c [p] cs
  | .many p, .node .vec cs => ConformsEach c p cs
  | .some p, .node .vec cs => ConformsEach c p cs ∧ cs ≠ []
  | .list p seps style, .node .punct cs => ConformsPairs c p seps cs ∧ Separated style cs
  | .pair p q, .node .tuple cs => ConformsAll c [p, q] cs
  | _, _ => False
/-- The nodes conform to the parts, one by one. -/
def ConformsAll (c : Cfg) : List Part → List Node → Prop
  | [], [] => True
  | p :: ps, n :: ns => Conforms c p n ∧ ConformsAll c ps ns
  | _, _ => False
/-- Each node conforms to the part. -/
def ConformsEach (c : Cfg) : Part → List Node → Prop
  | _, [] => True
  | p, n :: ns => Conforms c p n ∧ ConformsEach c p ns
/-- Each node is a pair of a conforming node and a separator, or only the former. -/
def ConformsPairs (c : Cfg) : Part → List Symbol → List Node → Prop
  | _, _, [] => True
  | p, seps, .node .pairEnd cs :: ns => ConformsAll c [p] cs ∧ ConformsPairs c p seps ns
  | p, seps, .node .pairPunct cs :: ns => ConformsAll c [p, .tok (.sym seps)] cs ∧ ConformsPairs c p seps ns
  | _, _, _ => False
end

end FM.Spec
