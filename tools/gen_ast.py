"""Writes /verif/lean/Verif/Model/Ast/Kinds.lean from the table below.  Line numbers are looked up in /repo."""
import re
SRC = "/repo/full-moon/src/ast/"
# category, rust type, file, rows: (kind, variant or None, [field:sort], layout or None, full range index or None)
# sorts: t token, s span, C:cat category, ?x option, *x vec, ,x punctuated, (x&y) tuple
T = []
def ty(cat, rust, file, *rows): T.append((cat, rust, file, rows))
W = "o0 c1 x0"
ty("block", "Block", "mod.rs", ("block", None, "stmts:*(stmt&?t) last_stmt:?(lastStmt&?t)"))
ty("lastStmt", "LastStmt", "mod.rs", ("lastBreak", "Break", "t"), ("lastContinue", "Continue", "t"), ("lastReturn", "Return", "ret"))
ty("ret", "Return", "mod.rs", ("ret", None, "token:t returns:,expr"))
ty("field", "Field", "mod.rs", ("fieldExprKey", "ExpressionKey", "brackets:s key:expr equal:t value:expr", "o0 c1 x0 c2 c3"),
   ("fieldNameKey", "NameKey", "key:t equal:t value:expr"), ("fieldSet", "SetConstructor", "dot:t name:t"), ("fieldNoKey", "NoKey", "expr"))
ty("tableCtor", "TableConstructor", "mod.rs", ("tableCtor", None, "braces:s fields:,field", W, 0))
ty("anonFunc", "AnonymousFunction", "mod.rs", ("anonFunc", None, "attributes:*luauAttr function_token:t body:funcBody"))
ty("expr", "Expression", "mod.rs", ("exprBinary", "BinaryOperator", "lhs:expr binop:binOp rhs:expr"),
   ("exprParens", "Parentheses", "contained:s expression:expr", W, 0), ("exprUnary", "UnaryOperator", "unop:unOp expression:expr"),
   ("exprFunction", "Function", "anonFunc"), ("exprCall", "FunctionCall", "functionCall"), ("exprIf", "IfExpression", "ifExpr"),
   ("exprInterp", "InterpolatedString", "interpString"), ("exprTable", "TableConstructor", "tableCtor"), ("exprNumber", "Number", "t"),
   ("exprString", "String", "t"), ("exprSymbol", "Symbol", "t"),
   ("exprAssertion", "TypeAssertion", "expression:expr type_assertion:typeAssertion"), ("exprVar", "Var", "var"))
ty("stmt", "Stmt", "mod.rs", ("stmtAssignment", "Assignment", "assignment"), ("stmtDo", "Do", "doBlock"), ("stmtCall", "FunctionCall", "functionCall"),
   ("stmtFunction", "FunctionDeclaration", "functionDecl"), ("stmtGenericFor", "GenericFor", "genericFor"), ("stmtIf", "If", "ifBlock"),
   ("stmtLocalAssignment", "LocalAssignment", "localAssignment"), ("stmtLocalFunction", "LocalFunction", "localFunction"),
   ("stmtNumericFor", "NumericFor", "numericFor"), ("stmtRepeat", "Repeat", "repeatBlock"), ("stmtWhile", "While", "whileBlock"),
   ("stmtCompound", "CompoundAssignment", "compoundAssignment"), ("stmtExportedType", "ExportedTypeDeclaration", "exportedTypeDecl"),
   ("stmtType", "TypeDeclaration", "typeDecl"), ("stmtExportedTypeFunction", "ExportedTypeFunction", "exportedTypeFunction"),
   ("stmtTypeFunction", "TypeFunction", "typeFunction"), ("stmtGoto", "Goto", "gotoStmt"), ("stmtLabel", "Label", "label"))
ty("prefix", "Prefix", "mod.rs", ("prefixExpr", "Expression", "expr"), ("prefixName", "Name", "t"))
ty("index", "Index", "mod.rs", ("indexBrackets", "Brackets", "brackets:s expression:expr", W), ("indexDot", "Dot", "dot:t name:t"))
ty("args", "FunctionArgs", "mod.rs", ("argsParens", "Parentheses", "parentheses:s arguments:,expr", W, 0), ("argsString", "String", "t"),
   ("argsTable", "TableConstructor", "tableCtor"))
ty("numericFor", "NumericFor", "mod.rs", ("numericFor", None, "for_token:t index_variable:t equal_token:t start:expr start_end_comma:t end:expr end_step_comma:?t step:?expr do_token:t block:block end_token:t type_specifier:?typeSpec", "c0 c1 c11 c2 c3 c4 c5 c6 c7 c8 c9 c10"))
ty("genericFor", "GenericFor", "mod.rs", ("genericFor", None, "for_token:t names:,t in_token:t expr_list:,expr do_token:t block:block end_token:t type_specifiers:*?typeSpec", "c0 z1,_,7 c2 c3 c4 c5 c6"))
ty("ifBlock", "If", "mod.rs", ("ifBlock", None, "if_token:t condition:expr then_token:t block:block else_if:?*elseIf else_token:?t r#else:?block end_token:t"))
ty("elseIf", "ElseIf", "mod.rs", ("elseIf", None, "else_if_token:t condition:expr then_token:t block:block"))
ty("whileBlock", "While", "mod.rs", ("whileBlock", None, "while_token:t condition:expr do_token:t block:block end_token:t"))
ty("repeatBlock", "Repeat", "mod.rs", ("repeatBlock", None, "repeat_token:t block:block until_token:t until:expr"))
ty("methodCall", "MethodCall", "mod.rs", ("methodCall", None, "colon_token:t name:t type_instantiation:?typeInst args:args"))
ty("call", "Call", "mod.rs", ("callAnonymous", "AnonymousCall", "args"), ("callMethod", "MethodCall", "methodCall"))
ty("funcBody", "FunctionBody", "mod.rs", ("funcBody", None, "generics:?genericDecl parameters_parentheses:s parameters:,param type_specifiers:*?typeSpec return_type:?typeSpec block:block end_token:t", "c0 o1 z2,_,3 x1 c4 c5 c6"))
ty("param", "Parameter", "mod.rs", ("paramEllipsis", "Ellipsis", "t"), ("paramName", "Name", "t"))
ty("suffix", "Suffix", "mod.rs", ("suffixCall", "Call", "call"), ("suffixIndex", "Index", "index"), ("suffixTypeInst", "TypeInstantiation", "typeInst"))
ty("varExpr", "VarExpression", "mod.rs", ("varExpr", None, "prefix:prefix suffixes:*suffix"))
ty("var", "Var", "mod.rs", ("varExpression", "Expression", "varExpr"), ("varName", "Name", "t"))
ty("assignment", "Assignment", "mod.rs", ("assignment", None, "var_list:,var equal_token:t expr_list:,expr"))
ty("localFunction", "LocalFunction", "mod.rs", ("localFunction", None, "attributes:*luauAttr local_token:t function_token:t name:t body:funcBody"))
ty("localAssignment", "LocalAssignment", "mod.rs", ("localAssignment", None, "local_token:t type_specifiers:*?typeSpec name_list:,t attributes:*?attribute equal_token:?t expr_list:,expr", "c0 z2,3,1 c4 c5"))
ty("doBlock", "Do", "mod.rs", ("doBlock", None, "do_token:t block:block end_token:t"))
ty("functionCall", "FunctionCall", "mod.rs", ("functionCall", None, "prefix:prefix suffixes:*suffix"))
ty("functionName", "FunctionName", "mod.rs", ("functionName", None, "names:,t colon_name:?(t&t)"))
ty("functionDecl", "FunctionDeclaration", "mod.rs", ("functionDecl", None, "attributes:*luauAttr function_token:t name:functionName body:funcBody"))
ty("binOp", "BinOp", "mod.rs", ("binOp (op : BinOp)", None, "t"))
ty("unOp", "UnOp", "mod.rs", ("unOp (op : UnOp)", None, "t"))
ty("attribute", "Attribute", "lua54.rs", ("attribute", None, "brackets:s name:t", W, 0))
ty("gotoStmt", "Goto", "lua52.rs", ("gotoStmt", None, "goto_token:t label_name:t"))
ty("label", "Label", "lua52.rs", ("label", None, "left_colons:t name:t right_colons:t"))
ty("compoundAssignment", "CompoundAssignment", "compound.rs", ("compoundAssignment", None, "lhs:var compound_operator:compoundOp rhs:expr"))
ty("compoundOp", "CompoundOp", "compound.rs", ("compoundOp (op : CompoundOp)", None, "t"))
ty("typeInfo", "TypeInfo", "luau.rs", ("tyArray", "Array", "braces:s access:?t type_info:typeInfo", "o0 c1 c2 x0"), ("tyBasic", "Basic", "t"),
   ("tyString", "String", "t"), ("tyBoolean", "Boolean", "t"),
   ("tyCallback", "Callback", "generics:?genericDecl parentheses:s arguments:,typeArg arrow:t return_type:typeInfo", "c0 o1 c2 x1 c3 c4"),
   ("tyGeneric", "Generic", "base:t arrows:s generics:,typeInfo", "c0 o1 c2 x1"), ("tyGenericPack", "GenericPack", "name:t ellipsis:t"),
   ("tyIntersection", "Intersection", "typeIntersection"), ("tyModule", "Module", "module:t punctuation:t type_info:indexedType"),
   ("tyOptional", "Optional", "base:typeInfo question_mark:t"), ("tyTable", "Table", "braces:s fields:,typeField", W),
   ("tyTypeof", "Typeof", "typeof_token:t parentheses:s inner:expr", "c0 o1 c2 x1"), ("tyTuple", "Tuple", "parentheses:s types:,typeInfo", W),
   ("tyUnion", "Union", "typeUnion"), ("tyVariadic", "Variadic", "ellipsis:t type_info:typeInfo"), ("tyVariadicPack", "VariadicPack", "ellipsis:t name:t"))
ty("typeUnion", "TypeUnion", "luau.rs", ("typeUnion", None, "leading:?t types:,typeInfo"))
ty("typeIntersection", "TypeIntersection", "luau.rs", ("typeIntersection", None, "leading:?t types:,typeInfo"))
ty("indexedType", "IndexedTypeInfo", "luau.rs", ("idxBasic", "Basic", "t"), ("idxGeneric", "Generic", "base:t arrows:s generics:,typeInfo", "c0 o1 c2 x1"))
ty("typeField", "TypeField", "luau.rs", ("typeField", None, "access:?t key:typeFieldKey colon:t value:typeInfo"))
ty("typeFieldKey", "TypeFieldKey", "luau.rs", ("keyName", "Name", "t"), ("keyIndex", "IndexSignature", "brackets:s inner:typeInfo", W))
ty("typeAssertion", "TypeAssertion", "luau.rs", ("typeAssertion", None, "assertion_op:t cast_to:typeInfo"))
ty("typeDecl", "TypeDeclaration", "luau.rs", ("typeDecl", None, "type_token:t base:t generics:?genericDecl equal_token:t declare_as:typeInfo"))
ty("genericParam", "GenericParameterInfo", "luau.rs", ("genericName", "Name", "t"), ("genericVariadic", "Variadic", "name:t ellipsis:t"))
ty("genericDeclParam", "GenericDeclarationParameter", "luau.rs", ("genericDeclParam", None, "parameter:genericParam default:?(t&typeInfo)"))
ty("genericDecl", "GenericDeclaration", "luau.rs", ("genericDecl", None, "arrows:s generics:,genericDeclParam", W))
ty("typeSpec", "TypeSpecifier", "luau.rs", ("typeSpec", None, "punctuation:t type_info:typeInfo"))
ty("typeArg", "TypeArgument", "luau.rs", ("typeArg", None, "name:?(t&t) type_info:typeInfo"))
ty("exportedTypeDecl", "ExportedTypeDeclaration", "luau.rs", ("exportedTypeDecl", None, "export_token:t type_declaration:typeDecl"))
ty("typeFunction", "TypeFunction", "luau.rs", ("typeFunction", None, "type_token:t function_token:t function_name:t function_body:funcBody"))
ty("exportedTypeFunction", "ExportedTypeFunction", "luau.rs", ("exportedTypeFunction", None, "export_token:t type_function:typeFunction"))
ty("ifExpr", "IfExpression", "luau.rs", ("ifExpr", None, "if_token:t condition:expr then_token:t if_expression:expr else_if_expressions:?*elseIfExpr else_token:t else_expression:expr"))
ty("elseIfExpr", "ElseIfExpression", "luau.rs", ("elseIfExpr", None, "else_if_token:t condition:expr then_token:t expression:expr"))
ty("interpString", "InterpolatedString", "luau.rs", ("interpString", None, "segments:*interpSegment last_string:t"))
ty("interpSegment", "InterpolatedStringSegment", "luau.rs", ("interpSegment", None, "literal:t expression:expr"))
ty("luauAttr", "LuauAttribute", "luau.rs", ("luauAttr", None, "at_sign:t name:t"))
ty("typeInst", "TypeInstantiation", "luau.rs", ("typeInst", None, "outer_arrows:s inner_arrows:s types:,typeInfo", "o0 o1 c2 x1 x0", 0))
cats = [t[0] for t in T]

def psort(s, top=True):
    def go(i):
        c = s[i]
        if c == '?': a, j = go(i+1); return f"(.opt {a})", j
        if c == '*': a, j = go(i+1); return f"(.vec {a})", j
        if c == ',': a, j = go(i+1); return f"(.punct {a})", j
        if c == '(':
            a, j = go(i+1); assert s[j] == '&'; b, k = go(j+1); assert s[k] == ')'
            return f"(.tup {a} {b})", k+1
        m = re.match(r"[A-Za-z]+", s[i:]).group(0)
        if m == 't': return ".tok", i+1
        if m == 's': return ".span", i+1
        assert m in cats, m
        return f"(.cat .{m})", i+len(m)
    a, j = go(0); assert j == len(s), s
    return a[1:-1] if a.startswith('(') else a

lines = {f: open(SRC+f).read().split("\n") for f in ("mod.rs", "luau.rs", "lua52.rs", "lua54.rs", "compound.rs")}
def find(f, rx, start=0):
    for i in range(start, len(lines[f])):
        if re.search(rx, lines[f][i]): return i
    raise Exception((f, rx))
def end_of(f, i):
    ind = re.match(r" *", lines[f][i]).group(0)
    if not lines[f][i].rstrip().endswith("{"): return i
    return find(f, "^" + ind + r"\},?;?$", i)

def rs_sort(s):
    """the expected Rust type of a field, for the check against the source"""
    names = {t[0]: t[1] for t in T}
    def go(i):
        c = s[i]
        if c == '?': a, j = go(i+1); return f"Option<{a}>", j
        if c == '*': a, j = go(i+1); return f"Vec<{a}>", j
        if c == ',': a, j = go(i+1); return f"Punctuated<{a}>", j
        if c == '(':
            a, j = go(i+1); b, k = go(j+1); return f"({a},{b})", k+1
        m = re.match(r"[A-Za-z]+", s[i:]).group(0)
        if m == 't': return "TokenReference", i+1
        if m == 's': return "ContainedSpan", i+1
        return names[m], i+len(m)
    return go(0)[0]

out, sigs, catof, layouts, full = [], [], [], [], []
for cat, rust, file, rows in T:
    if rust == "BinOp": i = find(file, "pub enum BinOp")
    else: i = find(file, rf"pub (struct|enum) {rust} \{{")
    e = end_of(file, i)
    for row in rows:
        kind, variant, fields = row[0], row[1], row[2]
        layout = row[3] if len(row) > 3 else None
        fr = row[4] if len(row) > 4 else None
        fl = [(x.split(":") if ":" in x else [None, x]) for x in fields.split()]
        k = kind.split()[0]
        if variant:
            vi = find(file, rf"^    {variant}\b", i); ve = end_of(file, vi)
            assert ve <= e, (rust, variant)
            cite = f"`{rust}::{variant}` (ast/{file} {vi+1}" + (f"–{ve+1})" if ve > vi else ")")
            body = "\n".join(lines[file][vi:ve+1])
        else:
            cite = f"`{rust}` (ast/{file} {i+1}–{e+1})"
            body = "\n".join(lines[file][i:e+1])
        # check the fields against the source
        if rust not in ("BinOp", "UnOp", "CompoundOp"):
            code = "\n".join(l for l in body.split("\n") if not re.match(r"\s*(//|#\[)", l))
            code = re.sub(r"#\[cfg_attr\([^]]*\)\]", "", code)
            flat = re.sub(r"\s+", "", code).replace("pub(crate)", "").replace("pub", "")
            flat = re.sub(r"Box<((?:[^<>]|<[^<>]*>)*)>", r"\1", flat)
            exp = ",".join((f"{n}:" if n else "") + rs_sort(s) for n, s in fl)
            got = re.search(r"[{(](.*?),?[})],?$", flat, re.S).group(1)
            got = re.sub(r'feature="serde",serde\([^)]*\)(\)\])?', "", got).replace(")]", "")
            if got != exp: print("MISMATCH", rust, variant, "\n  got", got, "\n  exp", exp)
        ftxt = ", ".join(f"`{n}`" for n, _ in fl if n)
        out.append(f"  /-- {cite}" + (f": {ftxt}" if ftxt else "") + ". -/\n" + f"  | {kind}")
        pat = f".{k}" + (" _" if " " in kind else "")
        sigs.append(f"  | {pat} => [{', '.join(psort(s) for _, s in fl)}]")
        catof.append(f"  | {pat} => some .{cat}")
        if layout:
            sl = []
            for w in layout.split():
                if w[0] == 'c': sl.append(f".child {w[1:]}")
                elif w[0] == 'o': sl.append(f".opening {w[1:]}")
                elif w[0] == 'x': sl.append(f".closing {w[1:]}")
                else:
                    a, b, d = w[1:].split(",")
                    sl.append(f".names {a} {'none' if b == '_' else f'(some {b})'} {d}")
            layouts.append((k, sl))
        nf = lines[file]
        has_full = "node(full_range)" in body
        assert has_full == (fr is not None), (rust, variant, has_full, fr)
        if fr is not None: full.append(f"  | .{k} => some {fr}")

def wrap(xs, per=8):
    return "\n".join("  | " + " | ".join(xs[i:i+per]) for i in range(0, len(xs), per))

doc = f"""import Verif.Model.Symbol
import Verif.Model.Token

/-!
# Syntax trees: the table of node types

Written by `tools/gen_ast.py`, which checks every field list below against the Rust definitions.  One `Kind`
per Rust struct and per enum variant, plus the containers.  `sig` gives the types of the fields in
declaration order; `Box` is transparent.  Fields that exist only when a feature is compiled in
(`type_specifiers`, `attributes`, `generics`, ...) are always present here and empty when it is not.
-/

namespace FM

/-- The Rust type of a node. -/
inductive Cat where
{wrap(cats)}
  deriving Repr, DecidableEq

/-- Variants of `BinOp` (ast/mod.rs 2291–2326). -/
inductive BinOp where
  | caret | percent | slash | star | doubleSlash | minus | plus | twoDots | doubleLessThan | doubleGreaterThan
  | ampersand | tilde | pipe | greaterThan | greaterThanEqual | lessThan | lessThanEqual | tildeEqual | twoEqual
  | and | or
  deriving Repr, DecidableEq

/-- Variants of `UnOp` (ast/mod.rs 2360–2366). -/
inductive UnOp where
  | minus | not | hash | tilde
  deriving Repr, DecidableEq

/-- Variants of `CompoundOp` (ast/compound.rs 13–42). -/
inductive CompoundOp where
  | plusEqual | minusEqual | starEqual | slashEqual | caretEqual | doubleSlashEqual | percentEqual | twoDotsEqual
  | doubleLessThanEqual | doubleGreaterThanEqual | ampersandEqual | pipeEqual
  deriving Repr, DecidableEq

/-- Node types.  The first ones are the containers `Option`, `Vec`, pairs `(A, B)`, `Punctuated`, `Pair` and
`ContainedSpan`. -/
inductive Kind where
  /-- `None` -/
  | absent
  /-- `Some(_)` -/
  | present
  /-- `Vec<_>` -/
  | vec
  /-- `(_, _)` -/
  | tuple
  /-- `Punctuated<_>` (ast/punctuated.rs 36–38) -/
  | punct
  /-- `Pair::End` (ast/punctuated.rs 344) -/
  | pairEnd
  /-- `Pair::Punctuated` (ast/punctuated.rs 349) -/
  | pairPunct
  /-- `ContainedSpan` (ast/span.rs 23–25) -/
  | span
""" + "\n".join(out) + """
  deriving Repr, DecidableEq

/-- Types of fields. -/
inductive Ty where
  /-- `TokenReference` -/
  | tok
  /-- `ContainedSpan` -/
  | span
  /-- a node type -/
  | cat (c : Cat)
  /-- `Option<_>` -/
  | opt (a : Ty)
  /-- `Vec<_>` -/
  | vec (a : Ty)
  /-- `Punctuated<_>` -/
  | punct (a : Ty)
  /-- `Pair<_>` -/
  | pair (a : Ty)
  /-- `(_, _)` -/
  | tup (a b : Ty)
  deriving Repr, DecidableEq

/-- The Rust type a struct or variant belongs to; `none` for containers. -/
def Kind.cat : Kind → Option Cat
""" + "\n".join(catof) + """
  | .absent | .present | .vec | .tuple | .punct | .pairEnd | .pairPunct | .span => none

/-- Types of the fields in declaration order; `[]` for containers, see `HasTy`. -/
def Kind.sig : Kind → List Ty
""" + "\n".join(sigs) + """
  | .absent | .present | .vec | .tuple | .punct | .pairEnd | .pairPunct | .span => []

/-- The field marked `#[node(full_range)]`, if any. -/
def Kind.fullRange : Kind → Option Nat
""" + "\n".join(full) + """
  | _ => none

/-- A step of a layout: a field, the opening or closing token of a `ContainedSpan` field, or a list of names
where each name is followed by its element of up to two lists of options and then by its comma. -/
inductive Slot where
  | child (i : Nat)
  | opening (i : Nat)
  | closing (i : Nat)
  | names (names : Nat) (first : Option Nat) (second : Nat)
  /-- the same, skipping the commas -/
  | bareNames (names : Nat) (first : Option Nat) (second : Nat)
  deriving Repr, DecidableEq

/-- How a node is printed (the `#[display]` attributes), when that is not simply its fields in declaration
order. -/
def Kind.layout : Kind → Option (List Slot)
""" + "\n".join(f"  | .{k} => some [{', '.join(s)}]" for k, s in layouts) + """
  | _ => none

end FM
"""
import os
os.makedirs("/verif/lean/Verif/Model/Ast", exist_ok=True)
open("/verif/lean/Verif/Model/Ast/Kinds.lean", "w").write(doc)
