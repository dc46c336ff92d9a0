import Verif.Model.Ast.Kinds

/-!
# The names of visitor hooks

`full-moon-derive/src/visit.rs` makes the name of the hook a node calls from the name of its type.
-/

namespace FM

/-- `char::is_ascii_uppercase`, as `snake_case` uses it (full-moon-derive/src/visit.rs 12). -/
def isUpper (ch : Char) : Bool := 'A' ≤ ch && ch ≤ 'Z'

/-- `char::to_ascii_lowercase`, as `snake_case` uses it (full-moon-derive/src/visit.rs 9, 14). -/
def lower (ch : Char) : Char := if isUpper ch then Char.ofNat (ch.toNat + 32) else ch

/-- The loop of `snake_case` (full-moon-derive/src/visit.rs 11–18). -/
def snakeRest : Text → Text
  | [] => []
  | ch :: r => if isUpper ch then '_' :: lower ch :: snakeRest r else ch :: snakeRest r

/-- `snake_case` (full-moon-derive/src/visit.rs 7–21); `unwrap` panics for the empty text. -/
def snakeCase : Text → Outcome Text
  | [] => .panic
  | ch :: r => .ok (lower ch :: snakeRest r)

/-- The hook called before the parts of a node of the type (full-moon-derive/src/visit.rs 116–119).  The impls written by
hand (ast/visitors.rs 12–685, ast/luau_visitors.rs 11–432) name the same hook. -/
def hookOf (type : Text) : Outcome Text := (snakeCase type).bind fun s => .ok (c!"visit_" ++ s)

/-- The hook called after the parts of a node of the type (full-moon-derive/src/visit.rs 121–124). -/
def hookEndOf (type : Text) : Outcome Text := (snakeCase type).bind fun s => .ok (c!"visit_" ++ s ++ c!"_end")

/-- The names of the node types (ast/mod.rs 59–2360, ast/luau.rs 16–1260, ast/lua52.rs 15–54, ast/lua54.rs 15,
ast/compound.rs 13–111). -/
def Cat.typeName : Cat → Text
  | .block => c!"Block"
  | .lastStmt => c!"LastStmt"
  | .ret => c!"Return"
  | .field => c!"Field"
  | .tableCtor => c!"TableConstructor"
  | .anonFunc => c!"AnonymousFunction"
  | .expr => c!"Expression"
  | .stmt => c!"Stmt"
  | .prefix => c!"Prefix"
  | .index => c!"Index"
  | .args => c!"FunctionArgs"
  | .numericFor => c!"NumericFor"
  | .genericFor => c!"GenericFor"
  | .ifBlock => c!"If"
  | .elseIf => c!"ElseIf"
  | .whileBlock => c!"While"
  | .repeatBlock => c!"Repeat"
  | .methodCall => c!"MethodCall"
  | .call => c!"Call"
  | .funcBody => c!"FunctionBody"
  | .param => c!"Parameter"
  | .suffix => c!"Suffix"
  | .varExpr => c!"VarExpression"
  | .var => c!"Var"
  | .assignment => c!"Assignment"
  | .localFunction => c!"LocalFunction"
  | .localAssignment => c!"LocalAssignment"
  | .doBlock => c!"Do"
  | .functionCall => c!"FunctionCall"
  | .functionName => c!"FunctionName"
  | .functionDecl => c!"FunctionDeclaration"
  | .binOp => c!"BinOp"
  | .unOp => c!"UnOp"
  | .attribute => c!"Attribute"
  | .gotoStmt => c!"Goto"
  | .label => c!"Label"
  | .compoundAssignment => c!"CompoundAssignment"
  | .compoundOp => c!"CompoundOp"
  | .typeInfo => c!"TypeInfo"
  | .typeUnion => c!"TypeUnion"
  | .typeIntersection => c!"TypeIntersection"
  | .indexedType => c!"IndexedTypeInfo"
  | .typeField => c!"TypeField"
  | .typeFieldKey => c!"TypeFieldKey"
  | .typeAssertion => c!"TypeAssertion"
  | .typeDecl => c!"TypeDeclaration"
  | .genericParam => c!"GenericParameterInfo"
  | .genericDeclParam => c!"GenericDeclarationParameter"
  | .genericDecl => c!"GenericDeclaration"
  | .typeSpec => c!"TypeSpecifier"
  | .typeArg => c!"TypeArgument"
  | .exportedTypeDecl => c!"ExportedTypeDeclaration"
  | .typeFunction => c!"TypeFunction"
  | .exportedTypeFunction => c!"ExportedTypeFunction"
  | .ifExpr => c!"IfExpression"
  | .elseIfExpr => c!"ElseIfExpression"
  | .interpString => c!"InterpolatedString"
  | .interpSegment => c!"InterpolatedStringSegment"
  | .luauAttr => c!"LuauAttribute"
  | .typeInst => c!"TypeInstantiation"

/-- The hooks for nodes that the traits have, with the types of their arguments (visitors.rs 242–319).  Simplified: those of
all features together. -/
def declaredHooks : List (Text × Text) := [
  (c!"visit_anonymous_call", c!"FunctionArgs"),
  (c!"visit_anonymous_function", c!"AnonymousFunction"),
  (c!"visit_assignment", c!"Assignment"),
  (c!"visit_block", c!"Block"),
  (c!"visit_call", c!"Call"),
  (c!"visit_contained_span", c!"ContainedSpan"),
  (c!"visit_do", c!"Do"),
  (c!"visit_else_if", c!"ElseIf"),
  (c!"visit_eof", c!"TokenReference"),
  (c!"visit_expression", c!"Expression"),
  (c!"visit_field", c!"Field"),
  (c!"visit_function_args", c!"FunctionArgs"),
  (c!"visit_function_body", c!"FunctionBody"),
  (c!"visit_function_call", c!"FunctionCall"),
  (c!"visit_function_declaration", c!"FunctionDeclaration"),
  (c!"visit_function_name", c!"FunctionName"),
  (c!"visit_generic_for", c!"GenericFor"),
  (c!"visit_if", c!"If"),
  (c!"visit_index", c!"Index"),
  (c!"visit_local_assignment", c!"LocalAssignment"),
  (c!"visit_local_function", c!"LocalFunction"),
  (c!"visit_last_stmt", c!"LastStmt"),
  (c!"visit_method_call", c!"MethodCall"),
  (c!"visit_numeric_for", c!"NumericFor"),
  (c!"visit_parameter", c!"Parameter"),
  (c!"visit_prefix", c!"Prefix"),
  (c!"visit_return", c!"Return"),
  (c!"visit_repeat", c!"Repeat"),
  (c!"visit_stmt", c!"Stmt"),
  (c!"visit_suffix", c!"Suffix"),
  (c!"visit_table_constructor", c!"TableConstructor"),
  (c!"visit_token_reference", c!"TokenReference"),
  (c!"visit_un_op", c!"UnOp"),
  (c!"visit_var", c!"Var"),
  (c!"visit_var_expression", c!"VarExpression"),
  (c!"visit_while", c!"While"),
  (c!"visit_luau_attribute", c!"LuauAttribute"),
  (c!"visit_else_if_expression", c!"ElseIfExpression"),
  (c!"visit_exported_type_declaration", c!"ExportedTypeDeclaration"),
  (c!"visit_exported_type_function", c!"ExportedTypeFunction"),
  (c!"visit_generic_declaration", c!"GenericDeclaration"),
  (c!"visit_generic_declaration_parameter", c!"GenericDeclarationParameter"),
  (c!"visit_generic_parameter_info", c!"GenericParameterInfo"),
  (c!"visit_if_expression", c!"IfExpression"),
  (c!"visit_indexed_type_info", c!"IndexedTypeInfo"),
  (c!"visit_interpolated_string", c!"InterpolatedString"),
  (c!"visit_type_argument", c!"TypeArgument"),
  (c!"visit_type_assertion", c!"TypeAssertion"),
  (c!"visit_type_declaration", c!"TypeDeclaration"),
  (c!"visit_type_field", c!"TypeField"),
  (c!"visit_type_field_key", c!"TypeFieldKey"),
  (c!"visit_type_function", c!"TypeFunction"),
  (c!"visit_type_info", c!"TypeInfo"),
  (c!"visit_type_instantiation", c!"TypeInstantiation"),
  (c!"visit_type_intersection", c!"TypeIntersection"),
  (c!"visit_type_specifier", c!"TypeSpecifier"),
  (c!"visit_type_union", c!"TypeUnion"),
  (c!"visit_goto", c!"Goto"),
  (c!"visit_label", c!"Label"),
  (c!"visit_attribute", c!"Attribute"),
  (c!"visit_compound_assignment", c!"CompoundAssignment"),
  (c!"visit_compound_op", c!"CompoundOp")]

/-- The hooks for tokens (visitors.rs 319–336); they have no `_end`. -/
def declaredTokenHooks : List Text := [
  c!"visit_identifier",
  c!"visit_multi_line_comment",
  c!"visit_number",
  c!"visit_single_line_comment",
  c!"visit_string_literal",
  c!"visit_symbol",
  c!"visit_token",
  c!"visit_whitespace",
  c!"visit_interpolated_string_segment",
  c!"visit_c_style_comment"]

end FM
