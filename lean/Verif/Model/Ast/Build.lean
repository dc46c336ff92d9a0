import Verif.Model.Parser.State
import Verif.Model.Ast.Builders

/-!
# Constructors of the syntax nodes

The `new` functions of ast/mod.rs, ast/luau.rs, ast/lua52.rs, ast/lua54.rs and ast/compound.rs.  They make the keywords
and the brackets they need with `basic_symbol` or `symbol`, which panic if the text is not a symbol.  Fields that only
exist with a feature are present in the model, and empty, without it.  The `Default` impls call `new`: ast/mod.rs 174–178,
276–280, 344–348, 1553–1557, 2020–2024, ast/luau.rs 617–621.
-/

namespace FM.Build
open FM FM.Parser

/-- `Result::unwrap`. -/
def unwrap : Outcome (Except TokErrType TokRef) → Outcome TokRef
  | .ok (.ok t) => .ok t
  | .ok (.error _) | .panic => .panic
  | .diverge => .diverge

/-- `TokenReference::basic_symbol` (tokenizer/structs.rs 626–628). -/
def basic (f : Features) (text : Text) : Outcome TokRef := unwrap (symbolSpecific ⟨f, .lua51⟩ text)

/-- `TokenReference::symbol(text).unwrap()` (tokenizer/structs.rs 622–624). -/
def symbol (f : Features) (text : Text) : Outcome TokRef := unwrap (symbolSpecific ⟨f, .default⟩ text)

/-- A word followed by a space, as `TypeDeclaration::new` makes it (ast/luau.rs 433–439). -/
def word (text : Text) : TokRef := ⟨[], .new (.identifier text), [.new (.whitespace c!" ")]⟩

/-- `Punctuated::new` (ast/punctuated.rs 46–48). -/
def noItems : Node := .node .punct []

/-- `Vec::new`. -/
def noVec : Node := .node .vec []

/-- `None`. -/
def absent : Node := .node .absent []

variable (f : Features)

/-- `Block::new` (ast/mod.rs 67–72). -/
def block : Node := .node .block [noVec, absent]

/-- `Return::new` (ast/mod.rs 146–151). -/
def ret : Outcome Node :=
  (basic f c!"return ").bind fun t => .ok (.node .ret [.tok t, noItems])

/-- `TableConstructor::new` (ast/mod.rs 245–253). -/
def tableCtor : Outcome Node :=
  (basic f c!"{ ").bind fun o => (basic f c!" }").bind fun e => .ok (.node .tableCtor [span o e, noItems])

/-- `FunctionBody::new` (ast/mod.rs 1439–1459). -/
def funcBody : Outcome Node :=
  (basic f c!"(").bind fun o => (basic f c!")").bind fun e => (basic f c!"\nend").bind fun stop =>
    .ok (.node .funcBody [absent, span o e, noItems, noVec, absent, block, .tok stop])

/-- `AnonymousFunction::new` (ast/mod.rs 299–306). -/
def anonFunc : Outcome Node :=
  (basic f c!"function").bind fun t => (funcBody f).bind fun body => .ok (.node .anonFunc [noVec, .tok t, body])

/-- `NumericFor::new` (ast/mod.rs 610–626). -/
def numericFor (indexVariable : TokRef) (start stop : Node) : Outcome Node :=
  (basic f c!"for ").bind fun t => (basic f c!" = ").bind fun e => (basic f c!", ").bind fun cm =>
    (basic f c!" do\n").bind fun d => (basic f c!"\nend").bind fun x =>
      .ok (.node .numericFor [.tok t, .tok indexVariable, .tok e, start, .tok cm, stop, absent, absent, .tok d, block, .tok x, absent])

/-- `GenericFor::new` (ast/mod.rs 836–848). -/
def genericFor (names exprList : Node) : Outcome Node :=
  (basic f c!"for ").bind fun t => (basic f c!" in ").bind fun i => (basic f c!" do\n").bind fun d => (basic f c!"\nend").bind fun x =>
    .ok (.node .genericFor [.tok t, names, .tok i, exprList, .tok d, block, .tok x, noVec])

/-- `If::new` (ast/mod.rs 1002–1013). -/
def ifBlock (condition : Node) : Outcome Node :=
  (basic f c!"if ").bind fun i => (basic f c!" then").bind fun t => (basic f c!"\nend").bind fun x =>
    .ok (.node .ifBlock [.tok i, condition, .tok t, block, absent, absent, absent, .tok x])

/-- `ElseIf::new` (ast/mod.rs 1111–1118). -/
def elseIf (condition : Node) : Outcome Node :=
  (basic f c!"elseif ").bind fun i => (basic f c!" then\n").bind fun t => .ok (.node .elseIf [.tok i, condition, .tok t, block])

/-- `While::new` (ast/mod.rs 1178–1186). -/
def whileBlock (condition : Node) : Outcome Node :=
  (basic f c!"while ").bind fun w => (basic f c!" do\n").bind fun d => (basic f c!"end\n").bind fun x =>
    .ok (.node .whileBlock [.tok w, condition, .tok d, block, .tok x])

/-- `Repeat::new` (ast/mod.rs 1255–1262). -/
def repeatBlock (condition : Node) : Outcome Node :=
  (basic f c!"repeat\n").bind fun r => (basic f c!"\nuntil ").bind fun u => .ok (.node .repeatBlock [.tok r, block, .tok u, condition])

/-- `MethodCall::new` (ast/mod.rs 1327–1335). -/
def methodCall (name : TokRef) (args : Node) : Outcome Node :=
  (basic f c!":").bind fun t => .ok (.node .methodCall [.tok t, .tok name, absent, args])

/-- `VarExpression::new` (ast/mod.rs 1631–1636). -/
def varExpr (pre : Node) : Node := .node .varExpr [pre, noVec]

/-- `Assignment::new` (ast/mod.rs 1684–1690). -/
def assignment (vars exprs : Node) : Outcome Node :=
  (basic f c!" = ").bind fun t => .ok (.node .assignment [vars, .tok t, exprs])

/-- `LocalFunction::new` (ast/mod.rs 1757–1766). -/
def localFunction (name : TokRef) : Outcome Node :=
  (basic f c!"local ").bind fun l => (basic f c!"function ").bind fun t => (funcBody f).bind fun body =>
    .ok (.node .localFunction [noVec, .tok l, .tok t, .tok name, body])

/-- `LocalAssignment::new` (ast/mod.rs 1851–1862). -/
def localAssignment (names : Node) : Outcome Node :=
  (basic f c!"local ").bind fun l => .ok (.node .localAssignment [.tok l, noVec, names, noVec, absent, noItems])

/-- `Do::new` (ast/mod.rs 1981–1987). -/
def doBlock : Outcome Node :=
  (basic f c!"do\n").bind fun d => (basic f c!"\nend").bind fun x => .ok (.node .doBlock [.tok d, block, .tok x])

/-- `FunctionArgs::empty` (ast/mod.rs 576–585), and the arguments `FunctionCall::new` makes. -/
def emptyArgs : Outcome Node :=
  (basic f c!"(").bind fun o => (basic f c!")").bind fun e => .ok (.node .argsParens [span o e, noItems])

/-- `FunctionCall::new` (ast/mod.rs 2038–2051). -/
def functionCall (pre : Node) : Outcome Node :=
  (emptyArgs f).bind fun args => .ok (.node .functionCall [pre, .node .vec [.node .suffixCall [.node .callAnonymous [args]]]])

/-- `FunctionName::new` (ast/mod.rs 2090–2095). -/
def functionName (names : Node) : Node := .node .functionName [names, absent]

/-- `FunctionDeclaration::new` (ast/mod.rs 2147–2155). -/
def functionDecl (name : Node) : Outcome Node :=
  (basic f c!"function ").bind fun t => (funcBody f).bind fun body => .ok (.node .functionDecl [noVec, .tok t, name, body])

/-- `Goto::new` (ast/lua52.rs 22–27). -/
def gotoStmt (label : TokRef) : Outcome Node :=
  (symbol f c!"goto").bind fun t => .ok (.node .gotoStmt [.tok t, .tok label])

/-- `Label::new` (ast/lua52.rs 62–68). -/
def label (name : TokRef) : Outcome Node :=
  (symbol f c!"::").bind fun l => (symbol f c!"::").bind fun r => .ok (.node .label [.tok l, .tok name, .tok r])

/-- `Attribute::new` (ast/lua54.rs 24–32). -/
def varAttribute (name : TokRef) : Outcome Node :=
  (symbol f c!"<").bind fun l => (symbol f c!">").bind fun r => .ok (.node .attribute [span l r, .tok name])

/-- `CompoundAssignment::new` (ast/compound.rs 119–125). -/
def compoundAssignment (lhs op rhs : Node) : Node := .node .compoundAssignment [lhs, op, rhs]

/-- `TypeUnion::new` (ast/luau.rs 195–197). -/
def typeUnion (leading types : Node) : Node := .node .typeUnion [leading, types]

/-- `TypeIntersection::new` (ast/luau.rs 231–233). -/
def typeIntersection (leading types : Node) : Node := .node .typeIntersection [leading, types]

/-- `TypeField::new` (ast/luau.rs 295–302). -/
def typeField (key value : Node) : Outcome Node :=
  (symbol f c!": ").bind fun t => .ok (.node .typeField [absent, key, .tok t, value])

/-- `TypeAssertion::new` (ast/luau.rs 379–384). -/
def typeAssertion (castTo : Node) : Outcome Node :=
  (symbol f c!"::").bind fun t => .ok (.node .typeAssertion [.tok t, castTo])

/-- `TypeDeclaration::new` (ast/luau.rs 431–445). -/
def typeDecl (name : TokRef) (definition : Node) : Outcome Node :=
  (symbol f c!" = ").bind fun t => .ok (.node .typeDecl [.tok (word c!"type"), .tok name, absent, .tok t, definition])

/-- `GenericDeclarationParameter::new` (ast/luau.rs 541–546). -/
def genericDeclParam (parameter : Node) : Node := .node .genericDeclParam [parameter, absent]

/-- `GenericDeclaration::new` (ast/luau.rs 586–594). -/
def genericDecl : Outcome Node :=
  (symbol f c!"<").bind fun l => (symbol f c!">").bind fun r => .ok (.node .genericDecl [span l r, noItems])

/-- `TypeSpecifier::new` (ast/luau.rs 634–639). -/
def typeSpec (typeInfo : Node) : Outcome Node :=
  (symbol f c!": ").bind fun t => .ok (.node .typeSpec [.tok t, typeInfo])

/-- `TypeArgument::new` (ast/luau.rs 676–681). -/
def typeArg (typeInfo : Node) : Node := .node .typeArg [absent, typeInfo]

/-- `ExportedTypeDeclaration::new` (ast/luau.rs 725–736). -/
def exportedTypeDecl (declaration : Node) : Node := .node .exportedTypeDecl [.tok (word c!"export"), declaration]

/-- `TypeFunction::new` (ast/luau.rs 780–793). -/
def typeFunction (name : TokRef) (body : Node) : Outcome Node :=
  (basic f c!"function ").bind fun t => .ok (.node .typeFunction [.tok (word c!"type"), .tok t, .tok name, body])

/-- `ExportedTypeFunction::new` (ast/luau.rs 856–867). -/
def exportedTypeFunction (function : Node) : Node := .node .exportedTypeFunction [.tok (word c!"export"), function]

/-- `IfExpression::new` (ast/luau.rs 937–951). -/
def ifExpr (condition ifExpression elseExpression : Node) : Outcome Node :=
  (symbol f c!"if ").bind fun i => (symbol f c!" then").bind fun t => (symbol f c!" else ").bind fun e =>
    .ok (.node .ifExpr [.tok i, condition, .tok t, ifExpression, absent, .tok e, elseExpression])

/-- `ElseIfExpression::new` (ast/luau.rs 1050–1057). -/
def elseIfExpr (condition expression : Node) : Outcome Node :=
  (symbol f c!" elseif ").bind fun i => (symbol f c!" then ").bind fun t => .ok (.node .elseIfExpr [.tok i, condition, .tok t, expression])

/-- `InterpolatedString::new` (ast/luau.rs 1121–1126). -/
def interpString (segments : Node) (last : TokRef) : Node := .node .interpString [segments, .tok last]

/-- `LuauAttribute::new` (ast/luau.rs 1220–1225). -/
def luauAttr (name : TokRef) : Outcome Node :=
  (symbol f c!"@").bind fun t => .ok (.node .luauAttr [.tok t, .tok name])

/-- `TypeInstantiation::new` (ast/luau.rs 1276–1290). -/
def typeInst : Outcome Node :=
  (symbol f c!"<").bind fun l => (symbol f c!">").bind fun r => (symbol f c!"<").bind fun l' => (symbol f c!">").bind fun r' =>
    .ok (.node .typeInst [span l r, span l' r', noItems])

/-- Calling the `with_*` method of this name on a node. -/
def call (n : Node) (method : Text) (v : Node) : Node :=
  match n with
  | .tok t => .tok t
  | .node k cs =>
    match setters.find? fun s => s.kind == k && s.name == method with
    | some s => s.set (.node k cs) v
    | none => .node k cs

end FM.Build
