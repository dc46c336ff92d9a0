import Verif.Model.Symbol
import Verif.Model.Token

/-!
# Syntax trees: the table of node types

Written by `tools/gen_ast.py`, which checks every field list below against the Rust definitions.  One `Kind`
per Rust struct and per enum variant, plus the containers.  `sig` gives the types of the fields in
declaration order; `Box` is transparent.  Fields that exist only when a feature is compiled in
(`type_specifiers`, `attributes`, `generics`, ...) are always present here and empty when it is not.
-/

namespace FM

/-- The Rust type of a node. -/
inductive Cat where
  | block | lastStmt | ret | field | tableCtor | anonFunc | expr | stmt
  | prefix | index | args | numericFor | genericFor | ifBlock | elseIf | whileBlock
  | repeatBlock | methodCall | call | funcBody | param | suffix | varExpr | var
  | assignment | localFunction | localAssignment | doBlock | functionCall | functionName | functionDecl | binOp
  | unOp | attribute | gotoStmt | label | compoundAssignment | compoundOp | typeInfo | typeUnion
  | typeIntersection | indexedType | typeField | typeFieldKey | typeAssertion | typeDecl | genericParam | genericDeclParam
  | genericDecl | typeSpec | typeArg | exportedTypeDecl | typeFunction | exportedTypeFunction | ifExpr | elseIfExpr
  | interpString | interpSegment | luauAttr | typeInst
  deriving Repr, DecidableEq

/-- Variants of `BinOp` (ast/mod.rs 2291–2326). -/
inductive BinOp where
  | caret | percent | slash | star | doubleSlash | minus | plus | twoDots | doubleLessThan | doubleGreaterThan
  | ampersand | tilde | pipe | greaterThan | greaterThanEqual | lessThan | lessThanEqual | tildeEqual | twoEqual
  | and | or
  deriving Repr, DecidableEq

/-- Variants of `UnOp` (ast/mod.rs 2360–2366). -/
inductive UnOp where
  | minus | not | hash | tilde
  deriving Repr, DecidableEq

/-- Variants of `CompoundOp` (ast/compound.rs 13–42). -/
inductive CompoundOp where
  | plusEqual | minusEqual | starEqual | slashEqual | caretEqual | doubleSlashEqual | percentEqual | twoDotsEqual
  | doubleLessThanEqual | doubleGreaterThanEqual | ampersandEqual | pipeEqual
  deriving Repr, DecidableEq

/-- Node types.  The first ones are the containers `Option`, `Vec`, pairs `(A, B)`, `Punctuated`, `Pair` and
`ContainedSpan`. -/
inductive Kind where
  /-- `None` -/
  | absent
  /-- `Some(_)` -/
  | present
  /-- `Vec<_>` -/
  | vec
  /-- `(_, _)` -/
  | tuple
  /-- `Punctuated<_>` (ast/punctuated.rs 36–38) -/
  | punct
  /-- `Pair::End` (ast/punctuated.rs 344) -/
  | pairEnd
  /-- `Pair::Punctuated` (ast/punctuated.rs 349) -/
  | pairPunct
  /-- `ContainedSpan` (ast/span.rs 23–25) -/
  | span
  /-- `Block` (ast/mod.rs 59–63): `stmts`, `last_stmt`. -/
  | block
  /-- `LastStmt::Break` (ast/mod.rs 125). -/
  | lastBreak
  /-- `LastStmt::Continue` (ast/mod.rs 129). -/
  | lastContinue
  /-- `LastStmt::Return` (ast/mod.rs 131). -/
  | lastReturn
  /-- `Return` (ast/mod.rs 138–141): `token`, `returns`. -/
  | ret
  /-- `Field::ExpressionKey` (ast/mod.rs 194–203): `brackets`, `key`, `equal`, `value`. -/
  | fieldExprKey
  /-- `Field::NameKey` (ast/mod.rs 207–214): `key`, `equal`, `value`. -/
  | fieldNameKey
  /-- `Field::SetConstructor` (ast/mod.rs 219–224): `dot`, `name`. -/
  | fieldSet
  /-- `Field::NoKey` (ast/mod.rs 228). -/
  | fieldNoKey
  /-- `TableConstructor` (ast/mod.rs 235–240): `braces`, `fields`. -/
  | tableCtor
  /-- `AnonymousFunction` (ast/mod.rs 290–295): `attributes`, `function_token`, `body`. -/
  | anonFunc
  /-- `Expression::BinaryOperator` (ast/mod.rs 357–364): `lhs`, `binop`, `rhs`. -/
  | exprBinary
  /-- `Expression::Parentheses` (ast/mod.rs 368–374): `contained`, `expression`. -/
  | exprParens
  /-- `Expression::UnaryOperator` (ast/mod.rs 378–383): `unop`, `expression`. -/
  | exprUnary
  /-- `Expression::Function` (ast/mod.rs 387). -/
  | exprFunction
  /-- `Expression::FunctionCall` (ast/mod.rs 391). -/
  | exprCall
  /-- `Expression::IfExpression` (ast/mod.rs 397). -/
  | exprIf
  /-- `Expression::InterpolatedString` (ast/mod.rs 403). -/
  | exprInterp
  /-- `Expression::TableConstructor` (ast/mod.rs 407). -/
  | exprTable
  /-- `Expression::Number` (ast/mod.rs 411). -/
  | exprNumber
  /-- `Expression::String` (ast/mod.rs 415). -/
  | exprString
  /-- `Expression::Symbol` (ast/mod.rs 419). -/
  | exprSymbol
  /-- `Expression::TypeAssertion` (ast/mod.rs 425–431): `expression`, `type_assertion`. -/
  | exprAssertion
  /-- `Expression::Var` (ast/mod.rs 435). -/
  | exprVar
  /-- `Stmt::Assignment` (ast/mod.rs 445). -/
  | stmtAssignment
  /-- `Stmt::Do` (ast/mod.rs 448). -/
  | stmtDo
  /-- `Stmt::FunctionCall` (ast/mod.rs 451). -/
  | stmtCall
  /-- `Stmt::FunctionDeclaration` (ast/mod.rs 454). -/
  | stmtFunction
  /-- `Stmt::GenericFor` (ast/mod.rs 457). -/
  | stmtGenericFor
  /-- `Stmt::If` (ast/mod.rs 460). -/
  | stmtIf
  /-- `Stmt::LocalAssignment` (ast/mod.rs 463). -/
  | stmtLocalAssignment
  /-- `Stmt::LocalFunction` (ast/mod.rs 466). -/
  | stmtLocalFunction
  /-- `Stmt::NumericFor` (ast/mod.rs 469). -/
  | stmtNumericFor
  /-- `Stmt::Repeat` (ast/mod.rs 472). -/
  | stmtRepeat
  /-- `Stmt::While` (ast/mod.rs 475). -/
  | stmtWhile
  /-- `Stmt::CompoundAssignment` (ast/mod.rs 481). -/
  | stmtCompound
  /-- `Stmt::ExportedTypeDeclaration` (ast/mod.rs 485). -/
  | stmtExportedType
  /-- `Stmt::TypeDeclaration` (ast/mod.rs 489). -/
  | stmtType
  /-- `Stmt::ExportedTypeFunction` (ast/mod.rs 493). -/
  | stmtExportedTypeFunction
  /-- `Stmt::TypeFunction` (ast/mod.rs 497). -/
  | stmtTypeFunction
  /-- `Stmt::Goto` (ast/mod.rs 502). -/
  | stmtGoto
  /-- `Stmt::Label` (ast/mod.rs 506). -/
  | stmtLabel
  /-- `Prefix::Expression` (ast/mod.rs 517). -/
  | prefixExpr
  /-- `Prefix::Name` (ast/mod.rs 520). -/
  | prefixName
  /-- `Index::Brackets` (ast/mod.rs 531–536): `brackets`, `expression`. -/
  | indexBrackets
  /-- `Index::Dot` (ast/mod.rs 540–545): `dot`, `name`. -/
  | indexDot
  /-- `FunctionArgs::Parentheses` (ast/mod.rs 560–566): `parentheses`, `arguments`. -/
  | argsParens
  /-- `FunctionArgs::String` (ast/mod.rs 569). -/
  | argsString
  /-- `FunctionArgs::TableConstructor` (ast/mod.rs 572). -/
  | argsTable
  /-- `NumericFor` (ast/mod.rs 591–606): `for_token`, `index_variable`, `equal_token`, `start`, `start_end_comma`, `end`, `end_step_comma`, `step`, `do_token`, `block`, `end_token`, `type_specifier`. -/
  | numericFor
  /-- `GenericFor` (ast/mod.rs 818–832): `for_token`, `names`, `in_token`, `expr_list`, `do_token`, `block`, `end_token`, `type_specifiers`. -/
  | genericFor
  /-- `If` (ast/mod.rs 988–998): `if_token`, `condition`, `then_token`, `block`, `else_if`, `else_token`, `r#else`, `end_token`. -/
  | ifBlock
  /-- `ElseIf` (ast/mod.rs 1102–1107): `else_if_token`, `condition`, `then_token`, `block`. -/
  | elseIf
  /-- `While` (ast/mod.rs 1168–1174): `while_token`, `condition`, `do_token`, `block`, `end_token`. -/
  | whileBlock
  /-- `Repeat` (ast/mod.rs 1246–1251): `repeat_token`, `block`, `until_token`, `until`. -/
  | repeatBlock
  /-- `MethodCall` (ast/mod.rs 1314–1323): `colon_token`, `name`, `type_instantiation`, `args`. -/
  | methodCall
  /-- `Call::AnonymousCall` (ast/mod.rs 1410). -/
  | callAnonymous
  /-- `Call::MethodCall` (ast/mod.rs 1413). -/
  | callMethod
  /-- `FunctionBody` (ast/mod.rs 1419–1435): `generics`, `parameters_parentheses`, `parameters`, `type_specifiers`, `return_type`, `block`, `end_token`. -/
  | funcBody
  /-- `Parameter::Ellipsis` (ast/mod.rs 1595). -/
  | paramEllipsis
  /-- `Parameter::Name` (ast/mod.rs 1597). -/
  | paramName
  /-- `Suffix::Call` (ast/mod.rs 1608). -/
  | suffixCall
  /-- `Suffix::Index` (ast/mod.rs 1612). -/
  | suffixIndex
  /-- `Suffix::TypeInstantiation` (ast/mod.rs 1617). -/
  | suffixTypeInst
  /-- `VarExpression` (ast/mod.rs 1624–1627): `prefix`, `suffixes`. -/
  | varExpr
  /-- `Var::Expression` (ast/mod.rs 1666). -/
  | varExpression
  /-- `Var::Name` (ast/mod.rs 1669). -/
  | varName
  /-- `Assignment` (ast/mod.rs 1676–1680): `var_list`, `equal_token`, `expr_list`. -/
  | assignment
  /-- `LocalFunction` (ast/mod.rs 1746–1753): `attributes`, `local_token`, `function_token`, `name`, `body`. -/
  | localFunction
  /-- `LocalAssignment` (ast/mod.rs 1830–1847): `local_token`, `type_specifiers`, `name_list`, `attributes`, `equal_token`, `expr_list`. -/
  | localAssignment
  /-- `Do` (ast/mod.rs 1973–1977): `do_token`, `block`, `end_token`. -/
  | doBlock
  /-- `FunctionCall` (ast/mod.rs 2030–2033): `prefix`, `suffixes`. -/
  | functionCall
  /-- `FunctionName` (ast/mod.rs 2083–2086): `names`, `colon_name`. -/
  | functionName
  /-- `FunctionDeclaration` (ast/mod.rs 2137–2143): `attributes`, `function_token`, `name`, `body`. -/
  | functionDecl
  /-- `BinOp` (ast/mod.rs 2215–2225). -/
  | binOp (op : BinOp)
  /-- `UnOp` (ast/mod.rs 2360–2366). -/
  | unOp (op : UnOp)
  /-- `Attribute` (ast/lua54.rs 15–20): `brackets`, `name`. -/
  | attribute
  /-- `Goto` (ast/lua52.rs 15–18): `goto_token`, `label_name`. -/
  | gotoStmt
  /-- `Label` (ast/lua52.rs 54–58): `left_colons`, `name`, `right_colons`. -/
  | label
  /-- `CompoundAssignment` (ast/compound.rs 111–115): `lhs`, `compound_operator`, `rhs`. -/
  | compoundAssignment
  /-- `CompoundOp` (ast/compound.rs 13–42). -/
  | compoundOp (op : CompoundOp)
  /-- `TypeInfo::Array` (ast/luau.rs 25–36): `braces`, `access`, `type_info`. -/
  | tyArray
  /-- `TypeInfo::Basic` (ast/luau.rs 40). -/
  | tyBasic
  /-- `TypeInfo::String` (ast/luau.rs 44). -/
  | tyString
  /-- `TypeInfo::Boolean` (ast/luau.rs 48). -/
  | tyBoolean
  /-- `TypeInfo::Callback` (ast/luau.rs 57–68): `generics`, `parentheses`, `arguments`, `arrow`, `return_type`. -/
  | tyCallback
  /-- `TypeInfo::Generic` (ast/luau.rs 78–85): `base`, `arrows`, `generics`. -/
  | tyGeneric
  /-- `TypeInfo::GenericPack` (ast/luau.rs 90–95): `name`, `ellipsis`. -/
  | tyGenericPack
  /-- `TypeInfo::Intersection` (ast/luau.rs 99). -/
  | tyIntersection
  /-- `TypeInfo::Module` (ast/luau.rs 103–110): `module`, `punctuation`, `type_info`. -/
  | tyModule
  /-- `TypeInfo::Optional` (ast/luau.rs 114–119): `base`, `question_mark`. -/
  | tyOptional
  /-- `TypeInfo::Table` (ast/luau.rs 123–128): `braces`, `fields`. -/
  | tyTable
  /-- `TypeInfo::Typeof` (ast/luau.rs 138–145): `typeof_token`, `parentheses`, `inner`. -/
  | tyTypeof
  /-- `TypeInfo::Tuple` (ast/luau.rs 154–159): `parentheses`, `types`. -/
  | tyTuple
  /-- `TypeInfo::Union` (ast/luau.rs 163). -/
  | tyUnion
  /-- `TypeInfo::Variadic` (ast/luau.rs 167–172): `ellipsis`, `type_info`. -/
  | tyVariadic
  /-- `TypeInfo::VariadicPack` (ast/luau.rs 176–181): `ellipsis`, `name`. -/
  | tyVariadicPack
  /-- `TypeUnion` (ast/luau.rs 188–191): `leading`, `types`. -/
  | typeUnion
  /-- `TypeIntersection` (ast/luau.rs 224–227): `leading`, `types`. -/
  | typeIntersection
  /-- `IndexedTypeInfo::Basic` (ast/luau.rs 263). -/
  | idxBasic
  /-- `IndexedTypeInfo::Generic` (ast/luau.rs 267–274): `base`, `arrows`, `generics`. -/
  | idxGeneric
  /-- `TypeField` (ast/luau.rs 282–291): `access`, `key`, `colon`, `value`. -/
  | typeField
  /-- `TypeFieldKey::Name` (ast/luau.rs 355). -/
  | keyName
  /-- `TypeFieldKey::IndexSignature` (ast/luau.rs 359–365): `brackets`, `inner`. -/
  | keyIndex
  /-- `TypeAssertion` (ast/luau.rs 372–375): `assertion_op`, `cast_to`. -/
  | typeAssertion
  /-- `TypeDeclaration` (ast/luau.rs 421–427): `type_token`, `base`, `generics`, `equal_token`, `declare_as`. -/
  | typeDecl
  /-- `GenericParameterInfo::Name` (ast/luau.rs 514). -/
  | genericName
  /-- `GenericParameterInfo::Variadic` (ast/luau.rs 518–523): `name`, `ellipsis`. -/
  | genericVariadic
  /-- `GenericDeclarationParameter` (ast/luau.rs 534–537): `parameter`, `default`. -/
  | genericDeclParam
  /-- `GenericDeclaration` (ast/luau.rs 578–582): `arrows`, `generics`. -/
  | genericDecl
  /-- `TypeSpecifier` (ast/luau.rs 627–630): `punctuation`, `type_info`. -/
  | typeSpec
  /-- `TypeArgument` (ast/luau.rs 669–672): `name`, `type_info`. -/
  | typeArg
  /-- `ExportedTypeDeclaration` (ast/luau.rs 718–721): `export_token`, `type_declaration`. -/
  | exportedTypeDecl
  /-- `TypeFunction` (ast/luau.rs 771–776): `type_token`, `function_token`, `function_name`, `function_body`. -/
  | typeFunction
  /-- `ExportedTypeFunction` (ast/luau.rs 849–852): `export_token`, `type_function`. -/
  | exportedTypeFunction
  /-- `IfExpression` (ast/luau.rs 925–933): `if_token`, `condition`, `then_token`, `if_expression`, `else_if_expressions`, `else_token`, `else_expression`. -/
  | ifExpr
  /-- `ElseIfExpression` (ast/luau.rs 1041–1046): `else_if_token`, `condition`, `then_token`, `expression`. -/
  | elseIfExpr
  /-- `InterpolatedString` (ast/luau.rs 1114–1117): `segments`, `last_string`. -/
  | interpString
  /-- `InterpolatedStringSegment` (ast/luau.rs 1165–1171): `literal`, `expression`. -/
  | interpSegment
  /-- `LuauAttribute` (ast/luau.rs 1213–1216): `at_sign`, `name`. -/
  | luauAttr
  /-- `TypeInstantiation` (ast/luau.rs 1260–1272): `outer_arrows`, `inner_arrows`, `types`. -/
  | typeInst
  deriving Repr, DecidableEq

/-- Types of fields. -/
inductive Ty where
  /-- `TokenReference` -/
  | tok
  /-- `ContainedSpan` -/
  | span
  /-- a node type -/
  | cat (c : Cat)
  /-- `Option<_>` -/
  | opt (a : Ty)
  /-- `Vec<_>` -/
  | vec (a : Ty)
  /-- `Punctuated<_>` -/
  | punct (a : Ty)
  /-- `Pair<_>` -/
  | pair (a : Ty)
  /-- `(_, _)` -/
  | tup (a b : Ty)
  deriving Repr, DecidableEq

/-- The Rust type a struct or variant belongs to; `none` for containers. -/
def Kind.cat : Kind → Option Cat
  | .block => some .block
  | .lastBreak => some .lastStmt
  | .lastContinue => some .lastStmt
  | .lastReturn => some .lastStmt
  | .ret => some .ret
  | .fieldExprKey => some .field
  | .fieldNameKey => some .field
  | .fieldSet => some .field
  | .fieldNoKey => some .field
  | .tableCtor => some .tableCtor
  | .anonFunc => some .anonFunc
  | .exprBinary => some .expr
  | .exprParens => some .expr
  | .exprUnary => some .expr
  | .exprFunction => some .expr
  | .exprCall => some .expr
  | .exprIf => some .expr
  | .exprInterp => some .expr
  | .exprTable => some .expr
  | .exprNumber => some .expr
  | .exprString => some .expr
  | .exprSymbol => some .expr
  | .exprAssertion => some .expr
  | .exprVar => some .expr
  | .stmtAssignment => some .stmt
  | .stmtDo => some .stmt
  | .stmtCall => some .stmt
  | .stmtFunction => some .stmt
  | .stmtGenericFor => some .stmt
  | .stmtIf => some .stmt
  | .stmtLocalAssignment => some .stmt
  | .stmtLocalFunction => some .stmt
  | .stmtNumericFor => some .stmt
  | .stmtRepeat => some .stmt
  | .stmtWhile => some .stmt
  | .stmtCompound => some .stmt
  | .stmtExportedType => some .stmt
  | .stmtType => some .stmt
  | .stmtExportedTypeFunction => some .stmt
  | .stmtTypeFunction => some .stmt
  | .stmtGoto => some .stmt
  | .stmtLabel => some .stmt
  | .prefixExpr => some .prefix
  | .prefixName => some .prefix
  | .indexBrackets => some .index
  | .indexDot => some .index
  | .argsParens => some .args
  | .argsString => some .args
  | .argsTable => some .args
  | .numericFor => some .numericFor
  | .genericFor => some .genericFor
  | .ifBlock => some .ifBlock
  | .elseIf => some .elseIf
  | .whileBlock => some .whileBlock
  | .repeatBlock => some .repeatBlock
  | .methodCall => some .methodCall
  | .callAnonymous => some .call
  | .callMethod => some .call
  | .funcBody => some .funcBody
  | .paramEllipsis => some .param
  | .paramName => some .param
  | .suffixCall => some .suffix
  | .suffixIndex => some .suffix
  | .suffixTypeInst => some .suffix
  | .varExpr => some .varExpr
  | .varExpression => some .var
  | .varName => some .var
  | .assignment => some .assignment
  | .localFunction => some .localFunction
  | .localAssignment => some .localAssignment
  | .doBlock => some .doBlock
  | .functionCall => some .functionCall
  | .functionName => some .functionName
  | .functionDecl => some .functionDecl
  | .binOp _ => some .binOp
  | .unOp _ => some .unOp
  | .attribute => some .attribute
  | .gotoStmt => some .gotoStmt
  | .label => some .label
  | .compoundAssignment => some .compoundAssignment
  | .compoundOp _ => some .compoundOp
  | .tyArray => some .typeInfo
  | .tyBasic => some .typeInfo
  | .tyString => some .typeInfo
  | .tyBoolean => some .typeInfo
  | .tyCallback => some .typeInfo
  | .tyGeneric => some .typeInfo
  | .tyGenericPack => some .typeInfo
  | .tyIntersection => some .typeInfo
  | .tyModule => some .typeInfo
  | .tyOptional => some .typeInfo
  | .tyTable => some .typeInfo
  | .tyTypeof => some .typeInfo
  | .tyTuple => some .typeInfo
  | .tyUnion => some .typeInfo
  | .tyVariadic => some .typeInfo
  | .tyVariadicPack => some .typeInfo
  | .typeUnion => some .typeUnion
  | .typeIntersection => some .typeIntersection
  | .idxBasic => some .indexedType
  | .idxGeneric => some .indexedType
  | .typeField => some .typeField
  | .keyName => some .typeFieldKey
  | .keyIndex => some .typeFieldKey
  | .typeAssertion => some .typeAssertion
  | .typeDecl => some .typeDecl
  | .genericName => some .genericParam
  | .genericVariadic => some .genericParam
  | .genericDeclParam => some .genericDeclParam
  | .genericDecl => some .genericDecl
  | .typeSpec => some .typeSpec
  | .typeArg => some .typeArg
  | .exportedTypeDecl => some .exportedTypeDecl
  | .typeFunction => some .typeFunction
  | .exportedTypeFunction => some .exportedTypeFunction
  | .ifExpr => some .ifExpr
  | .elseIfExpr => some .elseIfExpr
  | .interpString => some .interpString
  | .interpSegment => some .interpSegment
  | .luauAttr => some .luauAttr
  | .typeInst => some .typeInst
  | .absent | .present | .vec | .tuple | .punct | .pairEnd | .pairPunct | .span => none

/-- Types of the fields in declaration order; `[]` for containers, see `HasTy`. -/
def Kind.sig : Kind → List Ty
  | .block => [.vec (.tup (.cat .stmt) (.opt .tok)), .opt (.tup (.cat .lastStmt) (.opt .tok))]
  | .lastBreak => [.tok]
  | .lastContinue => [.tok]
  | .lastReturn => [.cat .ret]
  | .ret => [.tok, .punct (.cat .expr)]
  | .fieldExprKey => [.span, .cat .expr, .tok, .cat .expr]
  | .fieldNameKey => [.tok, .tok, .cat .expr]
  | .fieldSet => [.tok, .tok]
  | .fieldNoKey => [.cat .expr]
  | .tableCtor => [.span, .punct (.cat .field)]
  | .anonFunc => [.vec (.cat .luauAttr), .tok, .cat .funcBody]
  | .exprBinary => [.cat .expr, .cat .binOp, .cat .expr]
  | .exprParens => [.span, .cat .expr]
  | .exprUnary => [.cat .unOp, .cat .expr]
  | .exprFunction => [.cat .anonFunc]
  | .exprCall => [.cat .functionCall]
  | .exprIf => [.cat .ifExpr]
  | .exprInterp => [.cat .interpString]
  | .exprTable => [.cat .tableCtor]
  | .exprNumber => [.tok]
  | .exprString => [.tok]
  | .exprSymbol => [.tok]
  | .exprAssertion => [.cat .expr, .cat .typeAssertion]
  | .exprVar => [.cat .var]
  | .stmtAssignment => [.cat .assignment]
  | .stmtDo => [.cat .doBlock]
  | .stmtCall => [.cat .functionCall]
  | .stmtFunction => [.cat .functionDecl]
  | .stmtGenericFor => [.cat .genericFor]
  | .stmtIf => [.cat .ifBlock]
  | .stmtLocalAssignment => [.cat .localAssignment]
  | .stmtLocalFunction => [.cat .localFunction]
  | .stmtNumericFor => [.cat .numericFor]
  | .stmtRepeat => [.cat .repeatBlock]
  | .stmtWhile => [.cat .whileBlock]
  | .stmtCompound => [.cat .compoundAssignment]
  | .stmtExportedType => [.cat .exportedTypeDecl]
  | .stmtType => [.cat .typeDecl]
  | .stmtExportedTypeFunction => [.cat .exportedTypeFunction]
  | .stmtTypeFunction => [.cat .typeFunction]
  | .stmtGoto => [.cat .gotoStmt]
  | .stmtLabel => [.cat .label]
  | .prefixExpr => [.cat .expr]
  | .prefixName => [.tok]
  | .indexBrackets => [.span, .cat .expr]
  | .indexDot => [.tok, .tok]
  | .argsParens => [.span, .punct (.cat .expr)]
  | .argsString => [.tok]
  | .argsTable => [.cat .tableCtor]
  | .numericFor => [.tok, .tok, .tok, .cat .expr, .tok, .cat .expr, .opt .tok, .opt (.cat .expr), .tok, .cat .block, .tok, .opt (.cat .typeSpec)]
  | .genericFor => [.tok, .punct .tok, .tok, .punct (.cat .expr), .tok, .cat .block, .tok, .vec (.opt (.cat .typeSpec))]
  | .ifBlock => [.tok, .cat .expr, .tok, .cat .block, .opt (.vec (.cat .elseIf)), .opt .tok, .opt (.cat .block), .tok]
  | .elseIf => [.tok, .cat .expr, .tok, .cat .block]
  | .whileBlock => [.tok, .cat .expr, .tok, .cat .block, .tok]
  | .repeatBlock => [.tok, .cat .block, .tok, .cat .expr]
  | .methodCall => [.tok, .tok, .opt (.cat .typeInst), .cat .args]
  | .callAnonymous => [.cat .args]
  | .callMethod => [.cat .methodCall]
  | .funcBody => [.opt (.cat .genericDecl), .span, .punct (.cat .param), .vec (.opt (.cat .typeSpec)), .opt (.cat .typeSpec), .cat .block, .tok]
  | .paramEllipsis => [.tok]
  | .paramName => [.tok]
  | .suffixCall => [.cat .call]
  | .suffixIndex => [.cat .index]
  | .suffixTypeInst => [.cat .typeInst]
  | .varExpr => [.cat .prefix, .vec (.cat .suffix)]
  | .varExpression => [.cat .varExpr]
  | .varName => [.tok]
  | .assignment => [.punct (.cat .var), .tok, .punct (.cat .expr)]
  | .localFunction => [.vec (.cat .luauAttr), .tok, .tok, .tok, .cat .funcBody]
  | .localAssignment => [.tok, .vec (.opt (.cat .typeSpec)), .punct .tok, .vec (.opt (.cat .attribute)), .opt .tok, .punct (.cat .expr)]
  | .doBlock => [.tok, .cat .block, .tok]
  | .functionCall => [.cat .prefix, .vec (.cat .suffix)]
  | .functionName => [.punct .tok, .opt (.tup .tok .tok)]
  | .functionDecl => [.vec (.cat .luauAttr), .tok, .cat .functionName, .cat .funcBody]
  | .binOp _ => [.tok]
  | .unOp _ => [.tok]
  | .attribute => [.span, .tok]
  | .gotoStmt => [.tok, .tok]
  | .label => [.tok, .tok, .tok]
  | .compoundAssignment => [.cat .var, .cat .compoundOp, .cat .expr]
  | .compoundOp _ => [.tok]
  | .tyArray => [.span, .opt .tok, .cat .typeInfo]
  | .tyBasic => [.tok]
  | .tyString => [.tok]
  | .tyBoolean => [.tok]
  | .tyCallback => [.opt (.cat .genericDecl), .span, .punct (.cat .typeArg), .tok, .cat .typeInfo]
  | .tyGeneric => [.tok, .span, .punct (.cat .typeInfo)]
  | .tyGenericPack => [.tok, .tok]
  | .tyIntersection => [.cat .typeIntersection]
  | .tyModule => [.tok, .tok, .cat .indexedType]
  | .tyOptional => [.cat .typeInfo, .tok]
  | .tyTable => [.span, .punct (.cat .typeField)]
  | .tyTypeof => [.tok, .span, .cat .expr]
  | .tyTuple => [.span, .punct (.cat .typeInfo)]
  | .tyUnion => [.cat .typeUnion]
  | .tyVariadic => [.tok, .cat .typeInfo]
  | .tyVariadicPack => [.tok, .tok]
  | .typeUnion => [.opt .tok, .punct (.cat .typeInfo)]
  | .typeIntersection => [.opt .tok, .punct (.cat .typeInfo)]
  | .idxBasic => [.tok]
  | .idxGeneric => [.tok, .span, .punct (.cat .typeInfo)]
  | .typeField => [.opt .tok, .cat .typeFieldKey, .tok, .cat .typeInfo]
  | .keyName => [.tok]
  | .keyIndex => [.span, .cat .typeInfo]
  | .typeAssertion => [.tok, .cat .typeInfo]
  | .typeDecl => [.tok, .tok, .opt (.cat .genericDecl), .tok, .cat .typeInfo]
  | .genericName => [.tok]
  | .genericVariadic => [.tok, .tok]
  | .genericDeclParam => [.cat .genericParam, .opt (.tup .tok (.cat .typeInfo))]
  | .genericDecl => [.span, .punct (.cat .genericDeclParam)]
  | .typeSpec => [.tok, .cat .typeInfo]
  | .typeArg => [.opt (.tup .tok .tok), .cat .typeInfo]
  | .exportedTypeDecl => [.tok, .cat .typeDecl]
  | .typeFunction => [.tok, .tok, .tok, .cat .funcBody]
  | .exportedTypeFunction => [.tok, .cat .typeFunction]
  | .ifExpr => [.tok, .cat .expr, .tok, .cat .expr, .opt (.vec (.cat .elseIfExpr)), .tok, .cat .expr]
  | .elseIfExpr => [.tok, .cat .expr, .tok, .cat .expr]
  | .interpString => [.vec (.cat .interpSegment), .tok]
  | .interpSegment => [.tok, .cat .expr]
  | .luauAttr => [.tok, .tok]
  | .typeInst => [.span, .span, .punct (.cat .typeInfo)]
  | .absent | .present | .vec | .tuple | .punct | .pairEnd | .pairPunct | .span => []

/-- The field marked `#[node(full_range)]`, if any. -/
def Kind.fullRange : Kind → Option Nat
  | .tableCtor => some 0
  | .exprParens => some 0
  | .argsParens => some 0
  | .attribute => some 0
  | .typeInst => some 0
  | _ => none

/-- A step of a layout: a field, the opening or closing token of a `ContainedSpan` field, or a list of names
where each name is followed by its element of up to two lists of options and then by its comma. -/
inductive Slot where
  | child (i : Nat)
  | opening (i : Nat)
  | closing (i : Nat)
  | names (names : Nat) (first : Option Nat) (second : Nat)
  /-- the same, skipping the commas -/
  | bareNames (names : Nat) (first : Option Nat) (second : Nat)
  deriving Repr, DecidableEq

/-- How a node is printed (the `#[display]` attributes), when that is not simply its fields in declaration
order. -/
def Kind.layout : Kind → Option (List Slot)
  | .fieldExprKey => some [.opening 0, .child 1, .closing 0, .child 2, .child 3]
  | .tableCtor => some [.opening 0, .child 1, .closing 0]
  | .exprParens => some [.opening 0, .child 1, .closing 0]
  | .indexBrackets => some [.opening 0, .child 1, .closing 0]
  | .argsParens => some [.opening 0, .child 1, .closing 0]
  | .numericFor => some [.child 0, .child 1, .child 11, .child 2, .child 3, .child 4, .child 5, .child 6, .child 7, .child 8, .child 9, .child 10]
  | .genericFor => some [.child 0, .names 1 none 7, .child 2, .child 3, .child 4, .child 5, .child 6]
  | .funcBody => some [.child 0, .opening 1, .names 2 none 3, .closing 1, .child 4, .child 5, .child 6]
  | .localAssignment => some [.child 0, .names 2 (some 3) 1, .child 4, .child 5]
  | .attribute => some [.opening 0, .child 1, .closing 0]
  | .tyArray => some [.opening 0, .child 1, .child 2, .closing 0]
  | .tyCallback => some [.child 0, .opening 1, .child 2, .closing 1, .child 3, .child 4]
  | .tyGeneric => some [.child 0, .opening 1, .child 2, .closing 1]
  | .tyTable => some [.opening 0, .child 1, .closing 0]
  | .tyTypeof => some [.child 0, .opening 1, .child 2, .closing 1]
  | .tyTuple => some [.opening 0, .child 1, .closing 0]
  | .idxGeneric => some [.child 0, .opening 1, .child 2, .closing 1]
  | .keyIndex => some [.opening 0, .child 1, .closing 0]
  | .genericDecl => some [.opening 0, .child 1, .closing 0]
  | .typeInst => some [.opening 0, .opening 1, .child 2, .closing 1, .closing 0]
  | _ => none

end FM
