"""Writes /verif/lean/Verif/Model/Ast/Builders.lean: the `with_*` methods and the accessors of the syntax nodes, read
from the sources in /repo.  Stops if a method has a shape it does not know."""
import re
src = open("/verif/tools/gen_ast.py").read()
exec(src[:src.index("cats = [")])
SRC = "/repo/full-moon/src/ast/"
kinds = {}
for cat, rust, file, rows in T:
    if len(rows) == 1 and rows[0][1] is None:
        kinds[(file, rust)] = (rows[0][0], [f.split(":")[0] for f in rows[0][2].split()])
names = {rust: cat for cat, rust, file, rows in T}
def rust_ty(t):
    t = t.replace(" ", "").rstrip(",").replace(",)", ")").replace("impl", "")
    for rx, f in ((r"Option<(.*)>$", ".opt"), (r"Vec<(.*)>$", ".vec"), (r"Punctuated<(.*)>$", ".punct")):
        m = re.match(rx, t)
        if m: return f"({f} {rust_ty(m.group(1))})"
    m = re.match(r"\((\w+),(.*)\)$", t)
    if m: return f"(.tup {rust_ty(m.group(1))} {rust_ty(m.group(2))})"
    if t == "TokenReference": return ".tok"
    if t == "ContainedSpan": return ".span"
    return f"(.cat .{names[t]})"
SKIP = {("BinOp", "precedence"), ("BinOp", "is_right_associative"), ("UnOp", "token"), ("CompoundOp", "token"), ("Error", "token"), ("Error", "error_message"), ("Error", "range"),
        ("AstError", "token"), ("AstError", "error_message"), ("AstError", "range"),
        ("Ast", "with_nodes"), ("Ast", "with_eof"), ("Ast", "nodes"), ("Ast", "eof"), ("InterpolatedString", "expressions")}
sets, gets, seen = [], [], set()
for file in ("mod.rs", "luau.rs", "lua52.rs", "lua54.rs", "compound.rs"):
    L = open(SRC + file).read().split("\n")
    cur = None
    i = 0
    while i < len(L):
        m = re.match(r"impl(?:<[^>]*>)? (\w+) \{", L[i])
        if m: cur = m.group(1)
        elif L[i] == "}": cur = None
        m = re.match(r"    pub fn (\w+)\((?:&self|self|mut self)(.*)", L[i])
        if m and cur:
            j = i
            while L[j] != "    }": j += 1
            text = " ".join(" ".join(L[i:j+1]).split())
            name = m.group(1)
            i0, i = i, j
            if (cur, name) in SKIP: continue
            kind, fields = kinds[(file, cur)]
            body = re.match(r"pub fn \w+\(.*?\) -> .*? \{ (.*) \}$", text).group(1)
            cite = f"{file} {i0+1}–{j+1}"
            if name.startswith("with_"):
                par = re.match(r"pub fn \w+\(self, (\w+|r#else): (.*?),? ?\) -> Self \{", text) or re.match(r"pub fn \w+\( self, (\w+|r#else): (.*?),? ?\) -> Self \{", text)
                b = re.match(r"Self \{ (r#\w+|\w+)(?:: (?:Box::new\((\w+)\)|(\w+)))?, \.\.self,? \}$", body)
                assert par and b, text
                assert (b.group(2) or b.group(3) or b.group(1)) == par.group(1), text
                sets.append((kind, name, fields.index(b.group(1)), rust_ty(par.group(2)), cite, cur))
            else:
                pats = [(r"&self\.(\w+)$", "whole"), (r"self\.(r#\w+|\w+)\.as_ref\(\)$", "whole"), (r"self\.(\w+)\.iter\(\)$", "whole"),
                        (r"self\.(\w+)\.iter\(\)\.map\(Option::as_ref\)$", "whole"), (r"self\.(\w+)\.iter\(\)\.map\(\|\(stmt, _\)\| stmt\)$", "eachFirst"),
                        (r"Some\(&self\.(\w+)\.as_ref\(\)\?\.0\)$", "optFirst"), (r"Some\(&self\.(\w+)\.as_ref\(\)\?\.1\)$", "optSecond"),
                        (r"self\.(\w+)\.as_ref\(\)\.map\(\|\(equals, _\)\| equals\)$", "optFirst"),
                        (r"self\.(\w+)\.as_ref\(\)\.map\(\|\(_, default_type\)\| default_type\)$", "optSecond")]
                for p, v in pats:
                    b = re.match(p, body)
                    if b: break
                assert b, text
                gets.append((kind, name, fields.index(b.group(1)), v, cite, cur))
        i += 1
o = []
w = o.append
w("import Verif.Model.Ast.Node\n")
w("/-!\n# Accessors and `with_*` methods of the syntax nodes\n\nWritten by tools/gen_builders.py from the sources.\n\nA field is read and written by its index in the declaration order of the Rust struct.  `as_ref`, `iter`, `Box::new` and the\n`map(Option::as_ref)` of the lists of annotations do not change what the caller sees and are left out.\n-/\n")
w("namespace FM\n")
w("""/-- What an accessor shows of the field it reads. -/
inductive Shows where
  /-- the field -/
  | whole
  /-- the first components of a list of pairs: `iter().map(|(a, _)| a)` -/
  | eachFirst
  /-- the first component of an optional pair -/
  | optFirst
  /-- the second component of an optional pair -/
  | optSecond
  deriving DecidableEq, Repr

/-- An accessor: the node it belongs to, its name, the field it reads and what it shows of it. -/
structure Getter where
  kind : Kind
  name : Text
  field : Nat
  view : Shows
  deriving DecidableEq, Repr

/-- A `with_*` method: the node it belongs to, its name the field it replaces and the type of its
parameter. -/
structure Setter where
  kind : Kind
  name : Text
  field : Nat
  /-- the type of the parameter -/
  param : Ty
  deriving DecidableEq, Repr

/-- The fields of a node. -/
def Node.fields : Node → List Node
  | .tok _ => []
  | .node _ cs => cs

/-- The component of a pair. -/
def Node.component (n : Node) (i : Nat) : Node := n.fields.getD i (.node .absent [])

/-- What the accessor returns for the field. -/
def Shows.of : Shows → Node → Node
  | .whole, n => n
  | .eachFirst, n => .node .vec (n.fields.map (·.component 0))
  | .optFirst, .node .present [p] => .node .present [p.component 0]
  | .optSecond, .node .present [p] => .node .present [p.component 1]
  | _, n => n

/-- Calling an accessor. -/
def Getter.get (g : Getter) (n : Node) : Node := g.view.of (n.component g.field)

/-- Calling a `with_*` method: `Self { field: value, ..self }`. -/
def Setter.set (s : Setter) (n : Node) (v : Node) : Node :=
  match n with
  | .tok t => .tok t
  | .node k cs => .node k (cs.set s.field v)
""")
def table(name, ty, doc, rows, fmt):
    w(f"/-- {doc} -/")
    w(f"def {name} : List {ty} := [")
    for r in rows: w(fmt(r) + ("," if r is not rows[-1] else "]") + f"  -- {r[-1]}, ast/{r[-2]}")
    w("")
table("setters", "Setter", "The `with_*` methods (ast/mod.rs, ast/luau.rs, ast/lua52.rs, ast/lua54.rs, ast/compound.rs; lines beside each row).", sets,
      lambda r: f'  ⟨.{r[0]}, c!"{r[1]}", {r[2]}, {r[3]}⟩')
table("getters", "Getter", "The accessors (ast/mod.rs, ast/luau.rs, ast/lua52.rs, ast/lua54.rs, ast/compound.rs; lines beside each row).", gets,
      lambda r: f'  ⟨.{r[0]}, c!"{r[1]}", {r[2]}, .{r[3]}⟩')
w("end FM")
open("/verif/lean/Verif/Model/Ast/Builders.lean", "w").write("\n".join(o) + "\n")
print(len(sets), "setters", len(gets), "getters")
