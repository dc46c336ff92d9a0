import Verif.Model.Ast.Node

/-!
# How serde stores the node types

Written by `tools/gen_serde.py`, which reads the derives and the `serde` attributes of every struct and enum of ast/mod.rs,
ast/luau.rs, ast/lua52.rs, ast/lua54.rs and ast/compound.rs (feature `serde`, compiled by default: Cargo.toml 19).
-/

namespace FM

/-- The feature a field is compiled with. -/
inductive Gate where
  | always | luau | lua54
  deriving DecidableEq, Repr

/-- Whether the field exists. -/
def Gate.on (f : Features) : Gate → Bool
  | .always => true
  | .luau => f.luau
  | .lua54 => f.lua54

/-- `#[serde(skip_serializing_if = ...)]`. -/
inductive Skip where
  /-- no such attribute -/
  | never
  /-- `Option::is_none` -/
  | none
  /-- `empty_optional_vector` (util.rs 10–12) -/
  | allNone
  /-- `vec_empty_or_all_none` (util.rs 18–20) -/
  | someAllNone
  deriving DecidableEq, Repr

/-- A field as serde's derive sees it: its name, the feature it is compiled with, when it is left out, and whether it has
`#[serde(default)]`. -/
structure Stored where
  name : Text
  gate : Gate := .always
  skip : Skip := .never
  default : Bool := false
  deriving DecidableEq, Repr

/-- A field without attributes. -/
def Stored.plain (name : Text) : Stored := { name }

/-- How serde's derive stores a node type. -/
inductive Shape where
  /-- a struct: a map from field names -/
  | struct (fields : List Stored)
  /-- a variant with one unnamed field: a map from the name of the variant to the field -/
  | newtype (name : Text)
  /-- a variant with named fields: a map from the name of the variant to a map from field names -/
  | fields (name : Text) (fields : List Stored)
  /-- not derived: the containers of Model/Ast/Saved.lean -/
  | container
  deriving DecidableEq, Repr

/-- All variants of `BinOp` (ast/mod.rs 2205–2225, 2291–2326). -/
def BinOp.variants : List BinOp :=
  [.caret, .percent, .slash, .star, .doubleSlash, .minus, .plus, .twoDots, .doubleLessThan, .doubleGreaterThan, .ampersand, .tilde, .pipe, .greaterThan, .greaterThanEqual, .lessThan, .lessThanEqual, .tildeEqual, .twoEqual, .and, .or]

/-- The names of the variants of `BinOp` (ast/mod.rs 2205–2225, 2291–2326). -/
def BinOp.serdeName : BinOp → Text
  | .caret => c!"Caret"
  | .percent => c!"Percent"
  | .slash => c!"Slash"
  | .star => c!"Star"
  | .doubleSlash => c!"DoubleSlash"
  | .minus => c!"Minus"
  | .plus => c!"Plus"
  | .twoDots => c!"TwoDots"
  | .doubleLessThan => c!"DoubleLessThan"
  | .doubleGreaterThan => c!"DoubleGreaterThan"
  | .ampersand => c!"Ampersand"
  | .tilde => c!"Tilde"
  | .pipe => c!"Pipe"
  | .greaterThan => c!"GreaterThan"
  | .greaterThanEqual => c!"GreaterThanEqual"
  | .lessThan => c!"LessThan"
  | .lessThanEqual => c!"LessThanEqual"
  | .tildeEqual => c!"TildeEqual"
  | .twoEqual => c!"TwoEqual"
  | .and => c!"And"
  | .or => c!"Or"

/-- All variants of `UnOp` (ast/mod.rs 2360–2372). -/
def UnOp.variants : List UnOp :=
  [.minus, .not, .hash, .tilde]

/-- The names of the variants of `UnOp` (ast/mod.rs 2360–2372). -/
def UnOp.serdeName : UnOp → Text
  | .minus => c!"Minus"
  | .not => c!"Not"
  | .hash => c!"Hash"
  | .tilde => c!"Tilde"

/-- All variants of `CompoundOp` (ast/compound.rs 13–42). -/
def CompoundOp.variants : List CompoundOp :=
  [.plusEqual, .minusEqual, .starEqual, .slashEqual, .caretEqual, .doubleSlashEqual, .percentEqual, .twoDotsEqual, .doubleLessThanEqual, .doubleGreaterThanEqual, .ampersandEqual, .pipeEqual]

/-- The names of the variants of `CompoundOp` (ast/compound.rs 13–42). -/
def CompoundOp.serdeName : CompoundOp → Text
  | .plusEqual => c!"PlusEqual"
  | .minusEqual => c!"MinusEqual"
  | .starEqual => c!"StarEqual"
  | .slashEqual => c!"SlashEqual"
  | .caretEqual => c!"CaretEqual"
  | .doubleSlashEqual => c!"DoubleSlashEqual"
  | .percentEqual => c!"PercentEqual"
  | .twoDotsEqual => c!"TwoDotsEqual"
  | .doubleLessThanEqual => c!"DoubleLessThanEqual"
  | .doubleGreaterThanEqual => c!"DoubleGreaterThanEqual"
  | .ampersandEqual => c!"AmpersandEqual"
  | .pipeEqual => c!"PipeEqual"

/-- How each node type is stored. -/
def Kind.shape : Kind → Shape
  | .block => .struct [.plain c!"stmts", { name := c!"last_stmt", skip := .none }]  -- `Block`, ast/mod.rs 59–63
  | .lastBreak => .newtype c!"Break"  -- `LastStmt::Break`, ast/mod.rs 125
  | .lastContinue => .newtype c!"Continue"  -- `LastStmt::Continue`, ast/mod.rs 129
  | .lastReturn => .newtype c!"Return"  -- `LastStmt::Return`, ast/mod.rs 131
  | .ret => .struct [.plain c!"token", .plain c!"returns"]  -- `Return`, ast/mod.rs 138–141
  | .fieldExprKey => .fields c!"ExpressionKey" [.plain c!"brackets", .plain c!"key", .plain c!"equal", .plain c!"value"]  -- `Field::ExpressionKey`, ast/mod.rs 194–203
  | .fieldNameKey => .fields c!"NameKey" [.plain c!"key", .plain c!"equal", .plain c!"value"]  -- `Field::NameKey`, ast/mod.rs 207–214
  | .fieldSet => .fields c!"SetConstructor" [.plain c!"dot", .plain c!"name"]  -- `Field::SetConstructor`, ast/mod.rs 219–224
  | .fieldNoKey => .newtype c!"NoKey"  -- `Field::NoKey`, ast/mod.rs 228
  | .tableCtor => .struct [.plain c!"braces", .plain c!"fields"]  -- `TableConstructor`, ast/mod.rs 235–240
  | .anonFunc => .struct [{ name := c!"attributes", gate := .luau }, .plain c!"function_token", .plain c!"body"]  -- `AnonymousFunction`, ast/mod.rs 290–295
  | .exprBinary => .fields c!"BinaryOperator" [.plain c!"lhs", .plain c!"binop", .plain c!"rhs"]  -- `Expression::BinaryOperator`, ast/mod.rs 357–364
  | .exprParens => .fields c!"Parentheses" [.plain c!"contained", .plain c!"expression"]  -- `Expression::Parentheses`, ast/mod.rs 368–374
  | .exprUnary => .fields c!"UnaryOperator" [.plain c!"unop", .plain c!"expression"]  -- `Expression::UnaryOperator`, ast/mod.rs 378–383
  | .exprFunction => .newtype c!"Function"  -- `Expression::Function`, ast/mod.rs 387
  | .exprCall => .newtype c!"FunctionCall"  -- `Expression::FunctionCall`, ast/mod.rs 391
  | .exprIf => .newtype c!"IfExpression"  -- `Expression::IfExpression`, ast/mod.rs 397
  | .exprInterp => .newtype c!"InterpolatedString"  -- `Expression::InterpolatedString`, ast/mod.rs 403
  | .exprTable => .newtype c!"TableConstructor"  -- `Expression::TableConstructor`, ast/mod.rs 407
  | .exprNumber => .newtype c!"Number"  -- `Expression::Number`, ast/mod.rs 411
  | .exprString => .newtype c!"String"  -- `Expression::String`, ast/mod.rs 415
  | .exprSymbol => .newtype c!"Symbol"  -- `Expression::Symbol`, ast/mod.rs 419
  | .exprAssertion => .fields c!"TypeAssertion" [.plain c!"expression", .plain c!"type_assertion"]  -- `Expression::TypeAssertion`, ast/mod.rs 425–431
  | .exprVar => .newtype c!"Var"  -- `Expression::Var`, ast/mod.rs 435
  | .stmtAssignment => .newtype c!"Assignment"  -- `Stmt::Assignment`, ast/mod.rs 445
  | .stmtDo => .newtype c!"Do"  -- `Stmt::Do`, ast/mod.rs 448
  | .stmtCall => .newtype c!"FunctionCall"  -- `Stmt::FunctionCall`, ast/mod.rs 451
  | .stmtFunction => .newtype c!"FunctionDeclaration"  -- `Stmt::FunctionDeclaration`, ast/mod.rs 454
  | .stmtGenericFor => .newtype c!"GenericFor"  -- `Stmt::GenericFor`, ast/mod.rs 457
  | .stmtIf => .newtype c!"If"  -- `Stmt::If`, ast/mod.rs 460
  | .stmtLocalAssignment => .newtype c!"LocalAssignment"  -- `Stmt::LocalAssignment`, ast/mod.rs 463
  | .stmtLocalFunction => .newtype c!"LocalFunction"  -- `Stmt::LocalFunction`, ast/mod.rs 466
  | .stmtNumericFor => .newtype c!"NumericFor"  -- `Stmt::NumericFor`, ast/mod.rs 469
  | .stmtRepeat => .newtype c!"Repeat"  -- `Stmt::Repeat`, ast/mod.rs 472
  | .stmtWhile => .newtype c!"While"  -- `Stmt::While`, ast/mod.rs 475
  | .stmtCompound => .newtype c!"CompoundAssignment"  -- `Stmt::CompoundAssignment`, ast/mod.rs 481
  | .stmtExportedType => .newtype c!"ExportedTypeDeclaration"  -- `Stmt::ExportedTypeDeclaration`, ast/mod.rs 485
  | .stmtType => .newtype c!"TypeDeclaration"  -- `Stmt::TypeDeclaration`, ast/mod.rs 489
  | .stmtExportedTypeFunction => .newtype c!"ExportedTypeFunction"  -- `Stmt::ExportedTypeFunction`, ast/mod.rs 493
  | .stmtTypeFunction => .newtype c!"TypeFunction"  -- `Stmt::TypeFunction`, ast/mod.rs 497
  | .stmtGoto => .newtype c!"Goto"  -- `Stmt::Goto`, ast/mod.rs 502
  | .stmtLabel => .newtype c!"Label"  -- `Stmt::Label`, ast/mod.rs 506
  | .prefixExpr => .newtype c!"Expression"  -- `Prefix::Expression`, ast/mod.rs 517
  | .prefixName => .newtype c!"Name"  -- `Prefix::Name`, ast/mod.rs 520
  | .indexBrackets => .fields c!"Brackets" [.plain c!"brackets", .plain c!"expression"]  -- `Index::Brackets`, ast/mod.rs 531–536
  | .indexDot => .fields c!"Dot" [.plain c!"dot", .plain c!"name"]  -- `Index::Dot`, ast/mod.rs 540–545
  | .argsParens => .fields c!"Parentheses" [.plain c!"parentheses", .plain c!"arguments"]  -- `FunctionArgs::Parentheses`, ast/mod.rs 560–566
  | .argsString => .newtype c!"String"  -- `FunctionArgs::String`, ast/mod.rs 569
  | .argsTable => .newtype c!"TableConstructor"  -- `FunctionArgs::TableConstructor`, ast/mod.rs 572
  | .numericFor => .struct [.plain c!"for_token", .plain c!"index_variable", .plain c!"equal_token", .plain c!"start", .plain c!"start_end_comma", .plain c!"end", .plain c!"end_step_comma", .plain c!"step", .plain c!"do_token", .plain c!"block", .plain c!"end_token", { name := c!"type_specifier", gate := .luau, skip := .none }]  -- `NumericFor`, ast/mod.rs 591–606
  | .genericFor => .struct [.plain c!"for_token", .plain c!"names", .plain c!"in_token", .plain c!"expr_list", .plain c!"do_token", .plain c!"block", .plain c!"end_token", { name := c!"type_specifiers", gate := .luau, skip := .someAllNone }]  -- `GenericFor`, ast/mod.rs 818–832
  | .ifBlock => .struct [.plain c!"if_token", .plain c!"condition", .plain c!"then_token", .plain c!"block", .plain c!"else_if", .plain c!"else_token", .plain c!"else", .plain c!"end_token"]  -- `If`, ast/mod.rs 988–998
  | .elseIf => .struct [.plain c!"else_if_token", .plain c!"condition", .plain c!"then_token", .plain c!"block"]  -- `ElseIf`, ast/mod.rs 1102–1107
  | .whileBlock => .struct [.plain c!"while_token", .plain c!"condition", .plain c!"do_token", .plain c!"block", .plain c!"end_token"]  -- `While`, ast/mod.rs 1168–1174
  | .repeatBlock => .struct [.plain c!"repeat_token", .plain c!"block", .plain c!"until_token", .plain c!"until"]  -- `Repeat`, ast/mod.rs 1246–1251
  | .methodCall => .struct [.plain c!"colon_token", .plain c!"name", { name := c!"type_instantiation", gate := .luau, skip := .none }, .plain c!"args"]  -- `MethodCall`, ast/mod.rs 1314–1323
  | .callAnonymous => .newtype c!"AnonymousCall"  -- `Call::AnonymousCall`, ast/mod.rs 1410
  | .callMethod => .newtype c!"MethodCall"  -- `Call::MethodCall`, ast/mod.rs 1413
  | .funcBody => .struct [{ name := c!"generics", gate := .luau }, .plain c!"parameters_parentheses", .plain c!"parameters", { name := c!"type_specifiers", gate := .luau }, { name := c!"return_type", gate := .luau, skip := .none }, .plain c!"block", .plain c!"end_token"]  -- `FunctionBody`, ast/mod.rs 1419–1435
  | .paramEllipsis => .newtype c!"Ellipsis"  -- `Parameter::Ellipsis`, ast/mod.rs 1595
  | .paramName => .newtype c!"Name"  -- `Parameter::Name`, ast/mod.rs 1597
  | .suffixCall => .newtype c!"Call"  -- `Suffix::Call`, ast/mod.rs 1608
  | .suffixIndex => .newtype c!"Index"  -- `Suffix::Index`, ast/mod.rs 1612
  | .suffixTypeInst => .newtype c!"TypeInstantiation"  -- `Suffix::TypeInstantiation`, ast/mod.rs 1617
  | .varExpr => .struct [.plain c!"prefix", .plain c!"suffixes"]  -- `VarExpression`, ast/mod.rs 1624–1627
  | .varExpression => .newtype c!"Expression"  -- `Var::Expression`, ast/mod.rs 1666
  | .varName => .newtype c!"Name"  -- `Var::Name`, ast/mod.rs 1669
  | .assignment => .struct [.plain c!"var_list", .plain c!"equal_token", .plain c!"expr_list"]  -- `Assignment`, ast/mod.rs 1676–1680
  | .localFunction => .struct [{ name := c!"attributes", gate := .luau }, .plain c!"local_token", .plain c!"function_token", .plain c!"name", .plain c!"body"]  -- `LocalFunction`, ast/mod.rs 1746–1753
  | .localAssignment => .struct [.plain c!"local_token", { name := c!"type_specifiers", gate := .luau, skip := .allNone }, .plain c!"name_list", { name := c!"attributes", gate := .lua54, skip := .allNone }, .plain c!"equal_token", .plain c!"expr_list"]  -- `LocalAssignment`, ast/mod.rs 1830–1847
  | .doBlock => .struct [.plain c!"do_token", .plain c!"block", .plain c!"end_token"]  -- `Do`, ast/mod.rs 1973–1977
  | .functionCall => .struct [.plain c!"prefix", .plain c!"suffixes"]  -- `FunctionCall`, ast/mod.rs 2030–2033
  | .functionName => .struct [.plain c!"names", .plain c!"colon_name"]  -- `FunctionName`, ast/mod.rs 2083–2086
  | .functionDecl => .struct [{ name := c!"attributes", gate := .luau }, .plain c!"function_token", .plain c!"name", .plain c!"body"]  -- `FunctionDeclaration`, ast/mod.rs 2137–2143
  | .binOp op => .newtype op.serdeName  -- `BinOp`, ast/mod.rs 2215–2225
  | .unOp op => .newtype op.serdeName  -- `UnOp`, ast/mod.rs 2360–2366
  | .attribute => .struct [.plain c!"brackets", .plain c!"name"]  -- `Attribute`, ast/lua54.rs 15–20
  | .gotoStmt => .struct [.plain c!"goto_token", .plain c!"label_name"]  -- `Goto`, ast/lua52.rs 15–18
  | .label => .struct [.plain c!"left_colons", .plain c!"name", .plain c!"right_colons"]  -- `Label`, ast/lua52.rs 54–58
  | .compoundAssignment => .struct [.plain c!"lhs", .plain c!"compound_operator", .plain c!"rhs"]  -- `CompoundAssignment`, ast/compound.rs 111–115
  | .compoundOp op => .newtype op.serdeName  -- `CompoundOp`, ast/compound.rs 13–42
  | .tyArray => .fields c!"Array" [.plain c!"braces", { name := c!"access", skip := .none, default := true }, .plain c!"type_info"]  -- `TypeInfo::Array`, ast/luau.rs 25–36
  | .tyBasic => .newtype c!"Basic"  -- `TypeInfo::Basic`, ast/luau.rs 40
  | .tyString => .newtype c!"String"  -- `TypeInfo::String`, ast/luau.rs 44
  | .tyBoolean => .newtype c!"Boolean"  -- `TypeInfo::Boolean`, ast/luau.rs 48
  | .tyCallback => .fields c!"Callback" [.plain c!"generics", .plain c!"parentheses", .plain c!"arguments", .plain c!"arrow", .plain c!"return_type"]  -- `TypeInfo::Callback`, ast/luau.rs 57–68
  | .tyGeneric => .fields c!"Generic" [.plain c!"base", .plain c!"arrows", .plain c!"generics"]  -- `TypeInfo::Generic`, ast/luau.rs 78–85
  | .tyGenericPack => .fields c!"GenericPack" [.plain c!"name", .plain c!"ellipsis"]  -- `TypeInfo::GenericPack`, ast/luau.rs 90–95
  | .tyIntersection => .newtype c!"Intersection"  -- `TypeInfo::Intersection`, ast/luau.rs 99
  | .tyModule => .fields c!"Module" [.plain c!"module", .plain c!"punctuation", .plain c!"type_info"]  -- `TypeInfo::Module`, ast/luau.rs 103–110
  | .tyOptional => .fields c!"Optional" [.plain c!"base", .plain c!"question_mark"]  -- `TypeInfo::Optional`, ast/luau.rs 114–119
  | .tyTable => .fields c!"Table" [.plain c!"braces", .plain c!"fields"]  -- `TypeInfo::Table`, ast/luau.rs 123–128
  | .tyTypeof => .fields c!"Typeof" [.plain c!"typeof_token", .plain c!"parentheses", .plain c!"inner"]  -- `TypeInfo::Typeof`, ast/luau.rs 138–145
  | .tyTuple => .fields c!"Tuple" [.plain c!"parentheses", .plain c!"types"]  -- `TypeInfo::Tuple`, ast/luau.rs 154–159
  | .tyUnion => .newtype c!"Union"  -- `TypeInfo::Union`, ast/luau.rs 163
  | .tyVariadic => .fields c!"Variadic" [.plain c!"ellipsis", .plain c!"type_info"]  -- `TypeInfo::Variadic`, ast/luau.rs 167–172
  | .tyVariadicPack => .fields c!"VariadicPack" [.plain c!"ellipsis", .plain c!"name"]  -- `TypeInfo::VariadicPack`, ast/luau.rs 176–181
  | .typeUnion => .struct [.plain c!"leading", .plain c!"types"]  -- `TypeUnion`, ast/luau.rs 188–191
  | .typeIntersection => .struct [.plain c!"leading", .plain c!"types"]  -- `TypeIntersection`, ast/luau.rs 224–227
  | .idxBasic => .newtype c!"Basic"  -- `IndexedTypeInfo::Basic`, ast/luau.rs 263
  | .idxGeneric => .fields c!"Generic" [.plain c!"base", .plain c!"arrows", .plain c!"generics"]  -- `IndexedTypeInfo::Generic`, ast/luau.rs 267–274
  | .typeField => .struct [{ name := c!"access", skip := .none, default := true }, .plain c!"key", .plain c!"colon", .plain c!"value"]  -- `TypeField`, ast/luau.rs 282–291
  | .keyName => .newtype c!"Name"  -- `TypeFieldKey::Name`, ast/luau.rs 355
  | .keyIndex => .fields c!"IndexSignature" [.plain c!"brackets", .plain c!"inner"]  -- `TypeFieldKey::IndexSignature`, ast/luau.rs 359–365
  | .typeAssertion => .struct [.plain c!"assertion_op", .plain c!"cast_to"]  -- `TypeAssertion`, ast/luau.rs 372–375
  | .typeDecl => .struct [.plain c!"type_token", .plain c!"base", .plain c!"generics", .plain c!"equal_token", .plain c!"declare_as"]  -- `TypeDeclaration`, ast/luau.rs 421–427
  | .genericName => .newtype c!"Name"  -- `GenericParameterInfo::Name`, ast/luau.rs 514
  | .genericVariadic => .fields c!"Variadic" [.plain c!"name", .plain c!"ellipsis"]  -- `GenericParameterInfo::Variadic`, ast/luau.rs 518–523
  | .genericDeclParam => .struct [.plain c!"parameter", .plain c!"default"]  -- `GenericDeclarationParameter`, ast/luau.rs 534–537
  | .genericDecl => .struct [.plain c!"arrows", .plain c!"generics"]  -- `GenericDeclaration`, ast/luau.rs 578–582
  | .typeSpec => .struct [.plain c!"punctuation", .plain c!"type_info"]  -- `TypeSpecifier`, ast/luau.rs 627–630
  | .typeArg => .struct [.plain c!"name", .plain c!"type_info"]  -- `TypeArgument`, ast/luau.rs 669–672
  | .exportedTypeDecl => .struct [.plain c!"export_token", .plain c!"type_declaration"]  -- `ExportedTypeDeclaration`, ast/luau.rs 718–721
  | .typeFunction => .struct [.plain c!"type_token", .plain c!"function_token", .plain c!"function_name", .plain c!"function_body"]  -- `TypeFunction`, ast/luau.rs 771–776
  | .exportedTypeFunction => .struct [.plain c!"export_token", .plain c!"type_function"]  -- `ExportedTypeFunction`, ast/luau.rs 849–852
  | .ifExpr => .struct [.plain c!"if_token", .plain c!"condition", .plain c!"then_token", .plain c!"if_expression", .plain c!"else_if_expressions", .plain c!"else_token", .plain c!"else_expression"]  -- `IfExpression`, ast/luau.rs 925–933
  | .elseIfExpr => .struct [.plain c!"else_if_token", .plain c!"condition", .plain c!"then_token", .plain c!"expression"]  -- `ElseIfExpression`, ast/luau.rs 1041–1046
  | .interpString => .struct [.plain c!"segments", .plain c!"last_string"]  -- `InterpolatedString`, ast/luau.rs 1114–1117
  | .interpSegment => .struct [.plain c!"literal", .plain c!"expression"]  -- `InterpolatedStringSegment`, ast/luau.rs 1165–1171
  | .luauAttr => .struct [.plain c!"at_sign", .plain c!"name"]  -- `LuauAttribute`, ast/luau.rs 1213–1216
  | .typeInst => .struct [.plain c!"outer_arrows", .plain c!"inner_arrows", .plain c!"types"]  -- `TypeInstantiation`, ast/luau.rs 1260–1272
  | .absent | .present | .vec | .tuple | .punct | .pairEnd | .pairPunct | .span => .container

/-- The structs and variants of each Rust type. -/
def Cat.kinds : Cat → List Kind
  | .block => [.block]
  | .lastStmt => [.lastBreak, .lastContinue, .lastReturn]
  | .ret => [.ret]
  | .field => [.fieldExprKey, .fieldNameKey, .fieldSet, .fieldNoKey]
  | .tableCtor => [.tableCtor]
  | .anonFunc => [.anonFunc]
  | .expr => [.exprBinary, .exprParens, .exprUnary, .exprFunction, .exprCall, .exprIf, .exprInterp, .exprTable, .exprNumber, .exprString, .exprSymbol, .exprAssertion, .exprVar]
  | .stmt => [.stmtAssignment, .stmtDo, .stmtCall, .stmtFunction, .stmtGenericFor, .stmtIf, .stmtLocalAssignment, .stmtLocalFunction, .stmtNumericFor, .stmtRepeat, .stmtWhile, .stmtCompound, .stmtExportedType, .stmtType, .stmtExportedTypeFunction, .stmtTypeFunction, .stmtGoto, .stmtLabel]
  | .prefix => [.prefixExpr, .prefixName]
  | .index => [.indexBrackets, .indexDot]
  | .args => [.argsParens, .argsString, .argsTable]
  | .numericFor => [.numericFor]
  | .genericFor => [.genericFor]
  | .ifBlock => [.ifBlock]
  | .elseIf => [.elseIf]
  | .whileBlock => [.whileBlock]
  | .repeatBlock => [.repeatBlock]
  | .methodCall => [.methodCall]
  | .call => [.callAnonymous, .callMethod]
  | .funcBody => [.funcBody]
  | .param => [.paramEllipsis, .paramName]
  | .suffix => [.suffixCall, .suffixIndex, .suffixTypeInst]
  | .varExpr => [.varExpr]
  | .var => [.varExpression, .varName]
  | .assignment => [.assignment]
  | .localFunction => [.localFunction]
  | .localAssignment => [.localAssignment]
  | .doBlock => [.doBlock]
  | .functionCall => [.functionCall]
  | .functionName => [.functionName]
  | .functionDecl => [.functionDecl]
  | .binOp => BinOp.variants.map .binOp
  | .unOp => UnOp.variants.map .unOp
  | .attribute => [.attribute]
  | .gotoStmt => [.gotoStmt]
  | .label => [.label]
  | .compoundAssignment => [.compoundAssignment]
  | .compoundOp => CompoundOp.variants.map .compoundOp
  | .typeInfo => [.tyArray, .tyBasic, .tyString, .tyBoolean, .tyCallback, .tyGeneric, .tyGenericPack, .tyIntersection, .tyModule, .tyOptional, .tyTable, .tyTypeof, .tyTuple, .tyUnion, .tyVariadic, .tyVariadicPack]
  | .typeUnion => [.typeUnion]
  | .typeIntersection => [.typeIntersection]
  | .indexedType => [.idxBasic, .idxGeneric]
  | .typeField => [.typeField]
  | .typeFieldKey => [.keyName, .keyIndex]
  | .typeAssertion => [.typeAssertion]
  | .typeDecl => [.typeDecl]
  | .genericParam => [.genericName, .genericVariadic]
  | .genericDeclParam => [.genericDeclParam]
  | .genericDecl => [.genericDecl]
  | .typeSpec => [.typeSpec]
  | .typeArg => [.typeArg]
  | .exportedTypeDecl => [.exportedTypeDecl]
  | .typeFunction => [.typeFunction]
  | .exportedTypeFunction => [.exportedTypeFunction]
  | .ifExpr => [.ifExpr]
  | .elseIfExpr => [.elseIfExpr]
  | .interpString => [.interpString]
  | .interpSegment => [.interpSegment]
  | .luauAttr => [.luauAttr]
  | .typeInst => [.typeInst]

end FM
