import Verif.Model.Ast.Node

/-!
# Accessors and `with_*` methods of the syntax nodes

Written by tools/gen_builders.py from the sources.

A field is read and written by its index in the declaration order of the Rust struct.  `as_ref`, `iter`, `Box::new` and the
`map(Option::as_ref)` of the lists of annotations do not change what the caller sees and are left out.
-/

namespace FM

/-- What an accessor shows of the field it reads. -/
inductive Shows where
  /-- the field -/
  | whole
  /-- the first components of a list of pairs: `iter().map(|(a, _)| a)` -/
  | eachFirst
  /-- the first component of an optional pair -/
  | optFirst
  /-- the second component of an optional pair -/
  | optSecond
  deriving DecidableEq, Repr

/-- An accessor: the node it belongs to, its name, the field it reads and what it shows of it. -/
structure Getter where
  kind : Kind
  name : Text
  field : Nat
  view : Shows
  deriving DecidableEq, Repr

/-- A `with_*` method: the node it belongs to, its name the field it replaces and the type of its
parameter. -/
structure Setter where
  kind : Kind
  name : Text
  field : Nat
  /-- the type of the parameter -/
  param : Ty
  deriving DecidableEq, Repr

/-- The fields of a node. -/
def Node.fields : Node → List Node
  | .tok _ => []
  | .node _ cs => cs

/-- The component of a pair. -/
def Node.component (n : Node) (i : Nat) : Node := n.fields.getD i (.node .absent [])

/-- What the accessor returns for the field. -/
def Shows.of : Shows → Node → Node
  | .whole, n => n
  | .eachFirst, n => .node .vec (n.fields.map (·.component 0))
  | .optFirst, .node .present [p] => .node .present [p.component 0]
  | .optSecond, .node .present [p] => .node .present [p.component 1]
  | _, n => n

/-- Calling an accessor. -/
def Getter.get (g : Getter) (n : Node) : Node := g.view.of (n.component g.field)

/-- Calling a `with_*` method: `Self { field: value, ..self }`. -/
def Setter.set (s : Setter) (n : Node) (v : Node) : Node :=
  match n with
  | .tok t => .tok t
  | .node k cs => .node k (cs.set s.field v)

/-- The `with_*` methods (ast/mod.rs, ast/luau.rs, ast/lua52.rs, ast/lua54.rs, ast/compound.rs; lines beside each row). -/
def setters : List Setter := [
  ⟨.block, c!"with_stmts", 0, (.vec (.tup (.cat .stmt) (.opt .tok)))⟩,  -- Block, ast/mod.rs 100–102
  ⟨.block, c!"with_last_stmt", 1, (.opt (.tup (.cat .lastStmt) (.opt .tok)))⟩,  -- Block, ast/mod.rs 106–108
  ⟨.ret, c!"with_token", 0, .tok⟩,  -- Return, ast/mod.rs 164–166
  ⟨.ret, c!"with_returns", 1, (.punct (.cat .expr))⟩,  -- Return, ast/mod.rs 169–171
  ⟨.tableCtor, c!"with_braces", 0, .span⟩,  -- TableConstructor, ast/mod.rs 266–268
  ⟨.tableCtor, c!"with_fields", 1, (.punct (.cat .field))⟩,  -- TableConstructor, ast/mod.rs 271–273
  ⟨.anonFunc, c!"with_attributes", 0, (.vec (.cat .luauAttr))⟩,  -- AnonymousFunction, ast/mod.rs 326–328
  ⟨.anonFunc, c!"with_function_token", 1, .tok⟩,  -- AnonymousFunction, ast/mod.rs 331–336
  ⟨.anonFunc, c!"with_body", 2, (.cat .funcBody)⟩,  -- AnonymousFunction, ast/mod.rs 339–341
  ⟨.numericFor, c!"with_for_token", 0, .tok⟩,  -- NumericFor, ast/mod.rs 697–699
  ⟨.numericFor, c!"with_index_variable", 1, .tok⟩,  -- NumericFor, ast/mod.rs 702–707
  ⟨.numericFor, c!"with_equal_token", 2, .tok⟩,  -- NumericFor, ast/mod.rs 710–715
  ⟨.numericFor, c!"with_start", 3, (.cat .expr)⟩,  -- NumericFor, ast/mod.rs 718–720
  ⟨.numericFor, c!"with_start_end_comma", 4, .tok⟩,  -- NumericFor, ast/mod.rs 723–728
  ⟨.numericFor, c!"with_end", 5, (.cat .expr)⟩,  -- NumericFor, ast/mod.rs 731–733
  ⟨.numericFor, c!"with_end_step_comma", 6, (.opt .tok)⟩,  -- NumericFor, ast/mod.rs 736–741
  ⟨.numericFor, c!"with_step", 7, (.opt (.cat .expr))⟩,  -- NumericFor, ast/mod.rs 744–746
  ⟨.numericFor, c!"with_do_token", 8, .tok⟩,  -- NumericFor, ast/mod.rs 749–751
  ⟨.numericFor, c!"with_block", 9, (.cat .block)⟩,  -- NumericFor, ast/mod.rs 754–756
  ⟨.numericFor, c!"with_end_token", 10, .tok⟩,  -- NumericFor, ast/mod.rs 759–761
  ⟨.numericFor, c!"with_type_specifier", 11, (.opt (.cat .typeSpec))⟩,  -- NumericFor, ast/mod.rs 766–771
  ⟨.genericFor, c!"with_for_token", 0, .tok⟩,  -- GenericFor, ast/mod.rs 897–899
  ⟨.genericFor, c!"with_names", 1, (.punct .tok)⟩,  -- GenericFor, ast/mod.rs 902–904
  ⟨.genericFor, c!"with_in_token", 2, .tok⟩,  -- GenericFor, ast/mod.rs 907–909
  ⟨.genericFor, c!"with_expressions", 3, (.punct (.cat .expr))⟩,  -- GenericFor, ast/mod.rs 912–914
  ⟨.genericFor, c!"with_do_token", 4, .tok⟩,  -- GenericFor, ast/mod.rs 917–919
  ⟨.genericFor, c!"with_block", 5, (.cat .block)⟩,  -- GenericFor, ast/mod.rs 922–924
  ⟨.genericFor, c!"with_end_token", 6, .tok⟩,  -- GenericFor, ast/mod.rs 927–929
  ⟨.genericFor, c!"with_type_specifiers", 7, (.vec (.opt (.cat .typeSpec)))⟩,  -- GenericFor, ast/mod.rs 934–939
  ⟨.ifBlock, c!"with_if_token", 0, .tok⟩,  -- If, ast/mod.rs 1058–1060
  ⟨.ifBlock, c!"with_condition", 1, (.cat .expr)⟩,  -- If, ast/mod.rs 1063–1065
  ⟨.ifBlock, c!"with_then_token", 2, .tok⟩,  -- If, ast/mod.rs 1068–1070
  ⟨.ifBlock, c!"with_block", 3, (.cat .block)⟩,  -- If, ast/mod.rs 1073–1075
  ⟨.ifBlock, c!"with_else_if", 4, (.opt (.vec (.cat .elseIf)))⟩,  -- If, ast/mod.rs 1078–1080
  ⟨.ifBlock, c!"with_else_token", 5, (.opt .tok)⟩,  -- If, ast/mod.rs 1083–1085
  ⟨.ifBlock, c!"with_else", 6, (.opt (.cat .block))⟩,  -- If, ast/mod.rs 1088–1090
  ⟨.ifBlock, c!"with_end_token", 7, .tok⟩,  -- If, ast/mod.rs 1093–1095
  ⟨.elseIf, c!"with_else_if_token", 0, .tok⟩,  -- ElseIf, ast/mod.rs 1141–1146
  ⟨.elseIf, c!"with_condition", 1, (.cat .expr)⟩,  -- ElseIf, ast/mod.rs 1149–1151
  ⟨.elseIf, c!"with_then_token", 2, .tok⟩,  -- ElseIf, ast/mod.rs 1154–1156
  ⟨.elseIf, c!"with_block", 3, (.cat .block)⟩,  -- ElseIf, ast/mod.rs 1159–1161
  ⟨.whileBlock, c!"with_while_token", 0, .tok⟩,  -- While, ast/mod.rs 1214–1219
  ⟨.whileBlock, c!"with_condition", 1, (.cat .expr)⟩,  -- While, ast/mod.rs 1222–1224
  ⟨.whileBlock, c!"with_do_token", 2, .tok⟩,  -- While, ast/mod.rs 1227–1229
  ⟨.whileBlock, c!"with_block", 3, (.cat .block)⟩,  -- While, ast/mod.rs 1232–1234
  ⟨.whileBlock, c!"with_end_token", 4, .tok⟩,  -- While, ast/mod.rs 1237–1239
  ⟨.repeatBlock, c!"with_repeat_token", 0, .tok⟩,  -- Repeat, ast/mod.rs 1285–1290
  ⟨.repeatBlock, c!"with_block", 1, (.cat .block)⟩,  -- Repeat, ast/mod.rs 1293–1295
  ⟨.repeatBlock, c!"with_until_token", 2, .tok⟩,  -- Repeat, ast/mod.rs 1298–1303
  ⟨.repeatBlock, c!"with_until", 3, (.cat .expr)⟩,  -- Repeat, ast/mod.rs 1306–1308
  ⟨.methodCall, c!"with_colon_token", 0, .tok⟩,  -- MethodCall, ast/mod.rs 1361–1366
  ⟨.methodCall, c!"with_name", 1, .tok⟩,  -- MethodCall, ast/mod.rs 1369–1371
  ⟨.methodCall, c!"with_args", 3, (.cat .args)⟩,  -- MethodCall, ast/mod.rs 1374–1376
  ⟨.methodCall, c!"with_type_instanation", 2, (.opt (.cat .typeInst))⟩,  -- MethodCall, ast/mod.rs 1380–1385
  ⟨.funcBody, c!"with_parameters_parentheses", 1, .span⟩,  -- FunctionBody, ast/mod.rs 1506–1511
  ⟨.funcBody, c!"with_parameters", 2, (.punct (.cat .param))⟩,  -- FunctionBody, ast/mod.rs 1514–1516
  ⟨.funcBody, c!"with_generics", 0, (.opt (.cat .genericDecl))⟩,  -- FunctionBody, ast/mod.rs 1520–1522
  ⟨.funcBody, c!"with_type_specifiers", 3, (.vec (.opt (.cat .typeSpec)))⟩,  -- FunctionBody, ast/mod.rs 1526–1531
  ⟨.funcBody, c!"with_return_type", 4, (.opt (.cat .typeSpec))⟩,  -- FunctionBody, ast/mod.rs 1535–1540
  ⟨.funcBody, c!"with_block", 5, (.cat .block)⟩,  -- FunctionBody, ast/mod.rs 1543–1545
  ⟨.funcBody, c!"with_end_token", 6, .tok⟩,  -- FunctionBody, ast/mod.rs 1548–1550
  ⟨.varExpr, c!"with_prefix", 0, (.cat .prefix)⟩,  -- VarExpression, ast/mod.rs 1649–1651
  ⟨.varExpr, c!"with_suffixes", 1, (.vec (.cat .suffix))⟩,  -- VarExpression, ast/mod.rs 1654–1656
  ⟨.assignment, c!"with_variables", 0, (.punct (.cat .var))⟩,  -- Assignment, ast/mod.rs 1710–1712
  ⟨.assignment, c!"with_equal_token", 1, .tok⟩,  -- Assignment, ast/mod.rs 1715–1720
  ⟨.assignment, c!"with_expressions", 2, (.punct (.cat .expr))⟩,  -- Assignment, ast/mod.rs 1723–1725
  ⟨.localFunction, c!"with_attributes", 0, (.vec (.cat .luauAttr))⟩,  -- LocalFunction, ast/mod.rs 1796–1798
  ⟨.localFunction, c!"with_local_token", 1, .tok⟩,  -- LocalFunction, ast/mod.rs 1801–1806
  ⟨.localFunction, c!"with_function_token", 2, .tok⟩,  -- LocalFunction, ast/mod.rs 1809–1814
  ⟨.localFunction, c!"with_name", 3, .tok⟩,  -- LocalFunction, ast/mod.rs 1817–1819
  ⟨.localFunction, c!"with_body", 4, (.cat .funcBody)⟩,  -- LocalFunction, ast/mod.rs 1822–1824
  ⟨.localAssignment, c!"with_local_token", 0, .tok⟩,  -- LocalAssignment, ast/mod.rs 1905–1910
  ⟨.localAssignment, c!"with_type_specifiers", 1, (.vec (.opt (.cat .typeSpec)))⟩,  -- LocalAssignment, ast/mod.rs 1914–1919
  ⟨.localAssignment, c!"with_attributes", 3, (.vec (.opt (.cat .attribute)))⟩,  -- LocalAssignment, ast/mod.rs 1923–1925
  ⟨.localAssignment, c!"with_names", 2, (.punct .tok)⟩,  -- LocalAssignment, ast/mod.rs 1928–1930
  ⟨.localAssignment, c!"with_equal_token", 4, (.opt .tok)⟩,  -- LocalAssignment, ast/mod.rs 1933–1938
  ⟨.localAssignment, c!"with_expressions", 5, (.punct (.cat .expr))⟩,  -- LocalAssignment, ast/mod.rs 1941–1943
  ⟨.doBlock, c!"with_do_token", 0, .tok⟩,  -- Do, ast/mod.rs 2005–2007
  ⟨.doBlock, c!"with_block", 1, (.cat .block)⟩,  -- Do, ast/mod.rs 2010–2012
  ⟨.doBlock, c!"with_end_token", 2, .tok⟩,  -- Do, ast/mod.rs 2015–2017
  ⟨.functionCall, c!"with_prefix", 0, (.cat .prefix)⟩,  -- FunctionCall, ast/mod.rs 2064–2066
  ⟨.functionCall, c!"with_suffixes", 1, (.vec (.cat .suffix))⟩,  -- FunctionCall, ast/mod.rs 2069–2071
  ⟨.functionName, c!"with_names", 0, (.punct .tok)⟩,  -- FunctionName, ast/mod.rs 2114–2116
  ⟨.functionName, c!"with_method", 1, (.opt (.tup .tok .tok))⟩,  -- FunctionName, ast/mod.rs 2120–2125
  ⟨.functionDecl, c!"with_attributes", 0, (.vec (.cat .luauAttr))⟩,  -- FunctionDeclaration, ast/mod.rs 2180–2182
  ⟨.functionDecl, c!"with_function_token", 1, .tok⟩,  -- FunctionDeclaration, ast/mod.rs 2185–2190
  ⟨.functionDecl, c!"with_name", 2, (.cat .functionName)⟩,  -- FunctionDeclaration, ast/mod.rs 2193–2195
  ⟨.functionDecl, c!"with_body", 3, (.cat .funcBody)⟩,  -- FunctionDeclaration, ast/mod.rs 2198–2200
  ⟨.typeUnion, c!"with_types", 1, (.punct (.cat .typeInfo))⟩,  -- TypeUnion, ast/luau.rs 200–202
  ⟨.typeUnion, c!"with_leading", 0, (.opt .tok)⟩,  -- TypeUnion, ast/luau.rs 205–207
  ⟨.typeIntersection, c!"with_types", 1, (.punct (.cat .typeInfo))⟩,  -- TypeIntersection, ast/luau.rs 236–238
  ⟨.typeIntersection, c!"with_leading", 0, (.opt .tok)⟩,  -- TypeIntersection, ast/luau.rs 241–243
  ⟨.typeField, c!"with_key", 1, (.cat .typeFieldKey)⟩,  -- TypeField, ast/luau.rs 325–327
  ⟨.typeField, c!"with_colon_token", 2, .tok⟩,  -- TypeField, ast/luau.rs 330–335
  ⟨.typeField, c!"with_access", 0, (.opt .tok)⟩,  -- TypeField, ast/luau.rs 338–340
  ⟨.typeField, c!"with_value", 3, (.cat .typeInfo)⟩,  -- TypeField, ast/luau.rs 343–345
  ⟨.typeAssertion, c!"with_assertion_op", 0, .tok⟩,  -- TypeAssertion, ast/luau.rs 397–402
  ⟨.typeAssertion, c!"with_cast_to", 1, (.cat .typeInfo)⟩,  -- TypeAssertion, ast/luau.rs 405–407
  ⟨.typeDecl, c!"with_type_token", 0, .tok⟩,  -- TypeDeclaration, ast/luau.rs 473–475
  ⟨.typeDecl, c!"with_type_name", 1, .tok⟩,  -- TypeDeclaration, ast/luau.rs 478–483
  ⟨.typeDecl, c!"with_generics", 2, (.opt (.cat .genericDecl))⟩,  -- TypeDeclaration, ast/luau.rs 486–488
  ⟨.typeDecl, c!"with_equal_token", 3, .tok⟩,  -- TypeDeclaration, ast/luau.rs 491–496
  ⟨.typeDecl, c!"with_type_definition", 4, (.cat .typeInfo)⟩,  -- TypeDeclaration, ast/luau.rs 499–504
  ⟨.genericDeclParam, c!"with_parameter", 0, (.cat .genericParam)⟩,  -- GenericDeclarationParameter, ast/luau.rs 564–566
  ⟨.genericDeclParam, c!"with_default", 1, (.opt (.tup .tok (.cat .typeInfo)))⟩,  -- GenericDeclarationParameter, ast/luau.rs 569–571
  ⟨.genericDecl, c!"with_arrows", 0, .span⟩,  -- GenericDeclaration, ast/luau.rs 607–609
  ⟨.genericDecl, c!"with_generics", 1, (.punct (.cat .genericDeclParam))⟩,  -- GenericDeclaration, ast/luau.rs 612–614
  ⟨.typeSpec, c!"with_punctuation", 0, .tok⟩,  -- TypeSpecifier, ast/luau.rs 653–658
  ⟨.typeSpec, c!"with_type_info", 1, (.cat .typeInfo)⟩,  -- TypeSpecifier, ast/luau.rs 661–663
  ⟨.typeArg, c!"with_name", 0, (.opt (.tup .tok .tok))⟩,  -- TypeArgument, ast/luau.rs 694–696
  ⟨.typeArg, c!"with_type_info", 1, (.cat .typeInfo)⟩,  -- TypeArgument, ast/luau.rs 699–701
  ⟨.exportedTypeDecl, c!"with_export_token", 0, .tok⟩,  -- ExportedTypeDeclaration, ast/luau.rs 749–754
  ⟨.exportedTypeDecl, c!"with_type_declaration", 1, (.cat .typeDecl)⟩,  -- ExportedTypeDeclaration, ast/luau.rs 757–762
  ⟨.typeFunction, c!"with_type_token", 0, .tok⟩,  -- TypeFunction, ast/luau.rs 816–818
  ⟨.typeFunction, c!"with_function_token", 1, .tok⟩,  -- TypeFunction, ast/luau.rs 821–826
  ⟨.typeFunction, c!"with_function_name", 2, .tok⟩,  -- TypeFunction, ast/luau.rs 829–834
  ⟨.typeFunction, c!"with_function_body", 3, (.cat .funcBody)⟩,  -- TypeFunction, ast/luau.rs 837–842
  ⟨.exportedTypeFunction, c!"with_export_token", 0, .tok⟩,  -- ExportedTypeFunction, ast/luau.rs 880–885
  ⟨.exportedTypeFunction, c!"with_type_function", 1, (.cat .typeFunction)⟩,  -- ExportedTypeFunction, ast/luau.rs 888–893
  ⟨.ifExpr, c!"with_if_token", 0, .tok⟩,  -- IfExpression, ast/luau.rs 990–992
  ⟨.ifExpr, c!"with_condition", 1, (.cat .expr)⟩,  -- IfExpression, ast/luau.rs 995–1000
  ⟨.ifExpr, c!"with_then_token", 2, .tok⟩,  -- IfExpression, ast/luau.rs 1003–1005
  ⟨.ifExpr, c!"with_if_expression", 3, (.cat .expr)⟩,  -- IfExpression, ast/luau.rs 1008–1013
  ⟨.ifExpr, c!"with_else_if", 4, (.opt (.vec (.cat .elseIfExpr)))⟩,  -- IfExpression, ast/luau.rs 1016–1021
  ⟨.ifExpr, c!"with_else_token", 5, .tok⟩,  -- IfExpression, ast/luau.rs 1024–1026
  ⟨.ifExpr, c!"with_else", 6, (.cat .expr)⟩,  -- IfExpression, ast/luau.rs 1029–1034
  ⟨.elseIfExpr, c!"with_else_if_token", 0, .tok⟩,  -- ElseIfExpression, ast/luau.rs 1080–1085
  ⟨.elseIfExpr, c!"with_condition", 1, (.cat .expr)⟩,  -- ElseIfExpression, ast/luau.rs 1088–1090
  ⟨.elseIfExpr, c!"with_then_token", 2, .tok⟩,  -- ElseIfExpression, ast/luau.rs 1093–1095
  ⟨.elseIfExpr, c!"with_block", 3, (.cat .expr)⟩,  -- ElseIfExpression, ast/luau.rs 1098–1100
  ⟨.interpString, c!"with_segments", 0, (.vec (.cat .interpSegment))⟩,  -- InterpolatedString, ast/luau.rs 1147–1149
  ⟨.interpString, c!"with_last_string", 1, .tok⟩,  -- InterpolatedString, ast/luau.rs 1152–1157
  ⟨.luauAttr, c!"with_at_sign", 0, .tok⟩,  -- LuauAttribute, ast/luau.rs 1238–1240
  ⟨.luauAttr, c!"with_name", 1, .tok⟩,  -- LuauAttribute, ast/luau.rs 1243–1245
  ⟨.typeInst, c!"with_outer_arrows", 0, .span⟩,  -- TypeInstantiation, ast/luau.rs 1308–1313
  ⟨.typeInst, c!"with_inner_arrows", 1, .span⟩,  -- TypeInstantiation, ast/luau.rs 1316–1321
  ⟨.typeInst, c!"with_types", 2, (.punct (.cat .typeInfo))⟩,  -- TypeInstantiation, ast/luau.rs 1324–1326
  ⟨.gotoStmt, c!"with_goto_token", 0, .tok⟩,  -- Goto, ast/lua52.rs 40–42
  ⟨.gotoStmt, c!"with_label_name", 1, .tok⟩,  -- Goto, ast/lua52.rs 45–47
  ⟨.label, c!"with_left_colons", 0, .tok⟩,  -- Label, ast/lua52.rs 86–91
  ⟨.label, c!"with_name", 1, .tok⟩,  -- Label, ast/lua52.rs 94–96
  ⟨.label, c!"with_right_colons", 2, .tok⟩,  -- Label, ast/lua52.rs 99–104
  ⟨.attribute, c!"with_name", 1, .tok⟩,  -- Attribute, ast/lua54.rs 45–47
  ⟨.attribute, c!"with_brackets", 0, .span⟩,  -- Attribute, ast/lua54.rs 50–52
  ⟨.compoundAssignment, c!"with_lhs", 0, (.cat .var)⟩,  -- CompoundAssignment, ast/compound.rs 143–145
  ⟨.compoundAssignment, c!"with_compound_operator", 1, (.cat .compoundOp)⟩,  -- CompoundAssignment, ast/compound.rs 148–153
  ⟨.compoundAssignment, c!"with_rhs", 2, (.cat .expr)⟩]  -- CompoundAssignment, ast/compound.rs 156–158

/-- The accessors (ast/mod.rs, ast/luau.rs, ast/lua52.rs, ast/lua54.rs, ast/compound.rs; lines beside each row). -/
def getters : List Getter := [
  ⟨.block, c!"stmts", 0, .eachFirst⟩,  -- Block, ast/mod.rs 78–80
  ⟨.block, c!"stmts_with_semicolon", 0, .whole⟩,  -- Block, ast/mod.rs 84–86
  ⟨.block, c!"last_stmt", 1, .optFirst⟩,  -- Block, ast/mod.rs 89–91
  ⟨.block, c!"last_stmt_with_semicolon", 1, .whole⟩,  -- Block, ast/mod.rs 94–96
  ⟨.ret, c!"token", 0, .whole⟩,  -- Return, ast/mod.rs 154–156
  ⟨.ret, c!"returns", 1, .whole⟩,  -- Return, ast/mod.rs 159–161
  ⟨.tableCtor, c!"braces", 0, .whole⟩,  -- TableConstructor, ast/mod.rs 256–258
  ⟨.tableCtor, c!"fields", 1, .whole⟩,  -- TableConstructor, ast/mod.rs 261–263
  ⟨.anonFunc, c!"attributes", 0, .whole⟩,  -- AnonymousFunction, ast/mod.rs 310–312
  ⟨.anonFunc, c!"function_token", 1, .whole⟩,  -- AnonymousFunction, ast/mod.rs 315–317
  ⟨.anonFunc, c!"body", 2, .whole⟩,  -- AnonymousFunction, ast/mod.rs 320–322
  ⟨.numericFor, c!"for_token", 0, .whole⟩,  -- NumericFor, ast/mod.rs 629–631
  ⟨.numericFor, c!"index_variable", 1, .whole⟩,  -- NumericFor, ast/mod.rs 634–636
  ⟨.numericFor, c!"equal_token", 2, .whole⟩,  -- NumericFor, ast/mod.rs 639–641
  ⟨.numericFor, c!"start", 3, .whole⟩,  -- NumericFor, ast/mod.rs 644–646
  ⟨.numericFor, c!"start_end_comma", 4, .whole⟩,  -- NumericFor, ast/mod.rs 651–653
  ⟨.numericFor, c!"end", 5, .whole⟩,  -- NumericFor, ast/mod.rs 656–658
  ⟨.numericFor, c!"end_step_comma", 6, .whole⟩,  -- NumericFor, ast/mod.rs 663–665
  ⟨.numericFor, c!"step", 7, .whole⟩,  -- NumericFor, ast/mod.rs 668–670
  ⟨.numericFor, c!"do_token", 8, .whole⟩,  -- NumericFor, ast/mod.rs 673–675
  ⟨.numericFor, c!"block", 9, .whole⟩,  -- NumericFor, ast/mod.rs 678–680
  ⟨.numericFor, c!"end_token", 10, .whole⟩,  -- NumericFor, ast/mod.rs 683–685
  ⟨.numericFor, c!"type_specifier", 11, .whole⟩,  -- NumericFor, ast/mod.rs 692–694
  ⟨.genericFor, c!"for_token", 0, .whole⟩,  -- GenericFor, ast/mod.rs 851–853
  ⟨.genericFor, c!"names", 1, .whole⟩,  -- GenericFor, ast/mod.rs 857–859
  ⟨.genericFor, c!"in_token", 2, .whole⟩,  -- GenericFor, ast/mod.rs 862–864
  ⟨.genericFor, c!"expressions", 3, .whole⟩,  -- GenericFor, ast/mod.rs 868–870
  ⟨.genericFor, c!"do_token", 4, .whole⟩,  -- GenericFor, ast/mod.rs 873–875
  ⟨.genericFor, c!"block", 5, .whole⟩,  -- GenericFor, ast/mod.rs 878–880
  ⟨.genericFor, c!"end_token", 6, .whole⟩,  -- GenericFor, ast/mod.rs 883–885
  ⟨.genericFor, c!"type_specifiers", 7, .whole⟩,  -- GenericFor, ast/mod.rs 892–894
  ⟨.ifBlock, c!"if_token", 0, .whole⟩,  -- If, ast/mod.rs 1016–1018
  ⟨.ifBlock, c!"condition", 1, .whole⟩,  -- If, ast/mod.rs 1021–1023
  ⟨.ifBlock, c!"then_token", 2, .whole⟩,  -- If, ast/mod.rs 1026–1028
  ⟨.ifBlock, c!"block", 3, .whole⟩,  -- If, ast/mod.rs 1031–1033
  ⟨.ifBlock, c!"else_token", 5, .whole⟩,  -- If, ast/mod.rs 1036–1038
  ⟨.ifBlock, c!"else_if", 4, .whole⟩,  -- If, ast/mod.rs 1043–1045
  ⟨.ifBlock, c!"else_block", 6, .whole⟩,  -- If, ast/mod.rs 1048–1050
  ⟨.ifBlock, c!"end_token", 7, .whole⟩,  -- If, ast/mod.rs 1053–1055
  ⟨.elseIf, c!"else_if_token", 0, .whole⟩,  -- ElseIf, ast/mod.rs 1121–1123
  ⟨.elseIf, c!"condition", 1, .whole⟩,  -- ElseIf, ast/mod.rs 1126–1128
  ⟨.elseIf, c!"then_token", 2, .whole⟩,  -- ElseIf, ast/mod.rs 1131–1133
  ⟨.elseIf, c!"block", 3, .whole⟩,  -- ElseIf, ast/mod.rs 1136–1138
  ⟨.whileBlock, c!"while_token", 0, .whole⟩,  -- While, ast/mod.rs 1189–1191
  ⟨.whileBlock, c!"condition", 1, .whole⟩,  -- While, ast/mod.rs 1194–1196
  ⟨.whileBlock, c!"do_token", 2, .whole⟩,  -- While, ast/mod.rs 1199–1201
  ⟨.whileBlock, c!"block", 3, .whole⟩,  -- While, ast/mod.rs 1204–1206
  ⟨.whileBlock, c!"end_token", 4, .whole⟩,  -- While, ast/mod.rs 1209–1211
  ⟨.repeatBlock, c!"repeat_token", 0, .whole⟩,  -- Repeat, ast/mod.rs 1265–1267
  ⟨.repeatBlock, c!"block", 1, .whole⟩,  -- Repeat, ast/mod.rs 1270–1272
  ⟨.repeatBlock, c!"until_token", 2, .whole⟩,  -- Repeat, ast/mod.rs 1275–1277
  ⟨.repeatBlock, c!"until", 3, .whole⟩,  -- Repeat, ast/mod.rs 1280–1282
  ⟨.methodCall, c!"colon_token", 0, .whole⟩,  -- MethodCall, ast/mod.rs 1338–1340
  ⟨.methodCall, c!"args", 3, .whole⟩,  -- MethodCall, ast/mod.rs 1343–1345
  ⟨.methodCall, c!"name", 1, .whole⟩,  -- MethodCall, ast/mod.rs 1348–1350
  ⟨.methodCall, c!"type_instantiation", 2, .whole⟩,  -- MethodCall, ast/mod.rs 1356–1358
  ⟨.funcBody, c!"parameters_parentheses", 1, .whole⟩,  -- FunctionBody, ast/mod.rs 1462–1464
  ⟨.funcBody, c!"parameters", 2, .whole⟩,  -- FunctionBody, ast/mod.rs 1467–1469
  ⟨.funcBody, c!"block", 5, .whole⟩,  -- FunctionBody, ast/mod.rs 1472–1474
  ⟨.funcBody, c!"end_token", 6, .whole⟩,  -- FunctionBody, ast/mod.rs 1477–1479
  ⟨.funcBody, c!"generics", 0, .whole⟩,  -- FunctionBody, ast/mod.rs 1485–1487
  ⟨.funcBody, c!"type_specifiers", 3, .whole⟩,  -- FunctionBody, ast/mod.rs 1494–1496
  ⟨.funcBody, c!"return_type", 4, .whole⟩,  -- FunctionBody, ast/mod.rs 1501–1503
  ⟨.varExpr, c!"prefix", 0, .whole⟩,  -- VarExpression, ast/mod.rs 1639–1641
  ⟨.varExpr, c!"suffixes", 1, .whole⟩,  -- VarExpression, ast/mod.rs 1644–1646
  ⟨.assignment, c!"expressions", 2, .whole⟩,  -- Assignment, ast/mod.rs 1694–1696
  ⟨.assignment, c!"equal_token", 1, .whole⟩,  -- Assignment, ast/mod.rs 1699–1701
  ⟨.assignment, c!"variables", 0, .whole⟩,  -- Assignment, ast/mod.rs 1705–1707
  ⟨.localFunction, c!"attributes", 0, .whole⟩,  -- LocalFunction, ast/mod.rs 1770–1772
  ⟨.localFunction, c!"local_token", 1, .whole⟩,  -- LocalFunction, ast/mod.rs 1775–1777
  ⟨.localFunction, c!"function_token", 2, .whole⟩,  -- LocalFunction, ast/mod.rs 1780–1782
  ⟨.localFunction, c!"body", 4, .whole⟩,  -- LocalFunction, ast/mod.rs 1785–1787
  ⟨.localFunction, c!"name", 3, .whole⟩,  -- LocalFunction, ast/mod.rs 1790–1792
  ⟨.localAssignment, c!"local_token", 0, .whole⟩,  -- LocalAssignment, ast/mod.rs 1865–1867
  ⟨.localAssignment, c!"equal_token", 4, .whole⟩,  -- LocalAssignment, ast/mod.rs 1870–1872
  ⟨.localAssignment, c!"expressions", 5, .whole⟩,  -- LocalAssignment, ast/mod.rs 1876–1878
  ⟨.localAssignment, c!"names", 2, .whole⟩,  -- LocalAssignment, ast/mod.rs 1882–1884
  ⟨.localAssignment, c!"type_specifiers", 1, .whole⟩,  -- LocalAssignment, ast/mod.rs 1891–1893
  ⟨.localAssignment, c!"attributes", 3, .whole⟩,  -- LocalAssignment, ast/mod.rs 1900–1902
  ⟨.doBlock, c!"do_token", 0, .whole⟩,  -- Do, ast/mod.rs 1990–1992
  ⟨.doBlock, c!"block", 1, .whole⟩,  -- Do, ast/mod.rs 1995–1997
  ⟨.doBlock, c!"end_token", 2, .whole⟩,  -- Do, ast/mod.rs 2000–2002
  ⟨.functionCall, c!"prefix", 0, .whole⟩,  -- FunctionCall, ast/mod.rs 2054–2056
  ⟨.functionCall, c!"suffixes", 1, .whole⟩,  -- FunctionCall, ast/mod.rs 2059–2061
  ⟨.functionName, c!"method_colon", 1, .optFirst⟩,  -- FunctionName, ast/mod.rs 2098–2100
  ⟨.functionName, c!"method_name", 1, .optSecond⟩,  -- FunctionName, ast/mod.rs 2103–2105
  ⟨.functionName, c!"names", 0, .whole⟩,  -- FunctionName, ast/mod.rs 2109–2111
  ⟨.functionDecl, c!"attributes", 0, .whole⟩,  -- FunctionDeclaration, ast/mod.rs 2159–2161
  ⟨.functionDecl, c!"function_token", 1, .whole⟩,  -- FunctionDeclaration, ast/mod.rs 2164–2166
  ⟨.functionDecl, c!"body", 3, .whole⟩,  -- FunctionDeclaration, ast/mod.rs 2169–2171
  ⟨.functionDecl, c!"name", 2, .whole⟩,  -- FunctionDeclaration, ast/mod.rs 2174–2176
  ⟨.typeUnion, c!"leading", 0, .whole⟩,  -- TypeUnion, ast/luau.rs 210–212
  ⟨.typeUnion, c!"types", 1, .whole⟩,  -- TypeUnion, ast/luau.rs 215–217
  ⟨.typeIntersection, c!"leading", 0, .whole⟩,  -- TypeIntersection, ast/luau.rs 246–248
  ⟨.typeIntersection, c!"types", 1, .whole⟩,  -- TypeIntersection, ast/luau.rs 251–253
  ⟨.typeField, c!"access", 0, .whole⟩,  -- TypeField, ast/luau.rs 305–307
  ⟨.typeField, c!"key", 1, .whole⟩,  -- TypeField, ast/luau.rs 310–312
  ⟨.typeField, c!"colon_token", 2, .whole⟩,  -- TypeField, ast/luau.rs 315–317
  ⟨.typeField, c!"value", 3, .whole⟩,  -- TypeField, ast/luau.rs 320–322
  ⟨.typeAssertion, c!"assertion_op", 0, .whole⟩,  -- TypeAssertion, ast/luau.rs 387–389
  ⟨.typeAssertion, c!"cast_to", 1, .whole⟩,  -- TypeAssertion, ast/luau.rs 392–394
  ⟨.typeDecl, c!"type_token", 0, .whole⟩,  -- TypeDeclaration, ast/luau.rs 448–450
  ⟨.typeDecl, c!"type_name", 1, .whole⟩,  -- TypeDeclaration, ast/luau.rs 453–455
  ⟨.typeDecl, c!"generics", 2, .whole⟩,  -- TypeDeclaration, ast/luau.rs 458–460
  ⟨.typeDecl, c!"equal_token", 3, .whole⟩,  -- TypeDeclaration, ast/luau.rs 463–465
  ⟨.typeDecl, c!"type_definition", 4, .whole⟩,  -- TypeDeclaration, ast/luau.rs 468–470
  ⟨.genericDeclParam, c!"parameter", 0, .whole⟩,  -- GenericDeclarationParameter, ast/luau.rs 549–551
  ⟨.genericDeclParam, c!"equals", 1, .optFirst⟩,  -- GenericDeclarationParameter, ast/luau.rs 554–556
  ⟨.genericDeclParam, c!"default_type", 1, .optSecond⟩,  -- GenericDeclarationParameter, ast/luau.rs 559–561
  ⟨.genericDecl, c!"arrows", 0, .whole⟩,  -- GenericDeclaration, ast/luau.rs 597–599
  ⟨.genericDecl, c!"generics", 1, .whole⟩,  -- GenericDeclaration, ast/luau.rs 602–604
  ⟨.typeSpec, c!"punctuation", 0, .whole⟩,  -- TypeSpecifier, ast/luau.rs 643–645
  ⟨.typeSpec, c!"type_info", 1, .whole⟩,  -- TypeSpecifier, ast/luau.rs 648–650
  ⟨.typeArg, c!"name", 0, .whole⟩,  -- TypeArgument, ast/luau.rs 684–686
  ⟨.typeArg, c!"type_info", 1, .whole⟩,  -- TypeArgument, ast/luau.rs 689–691
  ⟨.exportedTypeDecl, c!"export_token", 0, .whole⟩,  -- ExportedTypeDeclaration, ast/luau.rs 739–741
  ⟨.exportedTypeDecl, c!"type_declaration", 1, .whole⟩,  -- ExportedTypeDeclaration, ast/luau.rs 744–746
  ⟨.typeFunction, c!"type_token", 0, .whole⟩,  -- TypeFunction, ast/luau.rs 796–798
  ⟨.typeFunction, c!"function_token", 1, .whole⟩,  -- TypeFunction, ast/luau.rs 801–803
  ⟨.typeFunction, c!"function_name", 2, .whole⟩,  -- TypeFunction, ast/luau.rs 806–808
  ⟨.typeFunction, c!"function_body", 3, .whole⟩,  -- TypeFunction, ast/luau.rs 811–813
  ⟨.exportedTypeFunction, c!"export_token", 0, .whole⟩,  -- ExportedTypeFunction, ast/luau.rs 870–872
  ⟨.exportedTypeFunction, c!"type_function", 1, .whole⟩,  -- ExportedTypeFunction, ast/luau.rs 875–877
  ⟨.ifExpr, c!"if_token", 0, .whole⟩,  -- IfExpression, ast/luau.rs 954–956
  ⟨.ifExpr, c!"condition", 1, .whole⟩,  -- IfExpression, ast/luau.rs 959–961
  ⟨.ifExpr, c!"then_token", 2, .whole⟩,  -- IfExpression, ast/luau.rs 964–966
  ⟨.ifExpr, c!"if_expression", 3, .whole⟩,  -- IfExpression, ast/luau.rs 969–971
  ⟨.ifExpr, c!"else_token", 5, .whole⟩,  -- IfExpression, ast/luau.rs 974–976
  ⟨.ifExpr, c!"else_if_expressions", 4, .whole⟩,  -- IfExpression, ast/luau.rs 980–982
  ⟨.ifExpr, c!"else_expression", 6, .whole⟩,  -- IfExpression, ast/luau.rs 985–987
  ⟨.elseIfExpr, c!"else_if_token", 0, .whole⟩,  -- ElseIfExpression, ast/luau.rs 1060–1062
  ⟨.elseIfExpr, c!"condition", 1, .whole⟩,  -- ElseIfExpression, ast/luau.rs 1065–1067
  ⟨.elseIfExpr, c!"then_token", 2, .whole⟩,  -- ElseIfExpression, ast/luau.rs 1070–1072
  ⟨.elseIfExpr, c!"expression", 3, .whole⟩,  -- ElseIfExpression, ast/luau.rs 1075–1077
  ⟨.interpString, c!"segments", 0, .whole⟩,  -- InterpolatedString, ast/luau.rs 1129–1131
  ⟨.interpString, c!"last_string", 1, .whole⟩,  -- InterpolatedString, ast/luau.rs 1134–1136
  ⟨.luauAttr, c!"at_sign", 0, .whole⟩,  -- LuauAttribute, ast/luau.rs 1228–1230
  ⟨.luauAttr, c!"name", 1, .whole⟩,  -- LuauAttribute, ast/luau.rs 1233–1235
  ⟨.typeInst, c!"outer_arrows", 0, .whole⟩,  -- TypeInstantiation, ast/luau.rs 1293–1295
  ⟨.typeInst, c!"inner_arrows", 1, .whole⟩,  -- TypeInstantiation, ast/luau.rs 1298–1300
  ⟨.typeInst, c!"types", 2, .whole⟩,  -- TypeInstantiation, ast/luau.rs 1303–1305
  ⟨.gotoStmt, c!"goto_token", 0, .whole⟩,  -- Goto, ast/lua52.rs 30–32
  ⟨.gotoStmt, c!"label_name", 1, .whole⟩,  -- Goto, ast/lua52.rs 35–37
  ⟨.label, c!"left_colons", 0, .whole⟩,  -- Label, ast/lua52.rs 71–73
  ⟨.label, c!"name", 1, .whole⟩,  -- Label, ast/lua52.rs 76–78
  ⟨.label, c!"right_colons", 2, .whole⟩,  -- Label, ast/lua52.rs 81–83
  ⟨.attribute, c!"name", 1, .whole⟩,  -- Attribute, ast/lua54.rs 35–37
  ⟨.attribute, c!"brackets", 0, .whole⟩,  -- Attribute, ast/lua54.rs 40–42
  ⟨.compoundAssignment, c!"lhs", 0, .whole⟩,  -- CompoundAssignment, ast/compound.rs 128–130
  ⟨.compoundAssignment, c!"compound_operator", 1, .whole⟩,  -- CompoundAssignment, ast/compound.rs 133–135
  ⟨.compoundAssignment, c!"rhs", 2, .whole⟩]  -- CompoundAssignment, ast/compound.rs 138–140

end FM
