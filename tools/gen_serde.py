"""Writes /verif/lean/Verif/Model/Ast/Shapes.lean: how serde's derives store every node type, read off the attributes in /repo.
The table of node types is the one of gen_ast.py."""
import re
src = open("/verif/tools/gen_ast.py").read()
env = {}
exec(src[:src.index("out, sigs, catof")], env)
T, lines, find, end_of = env["T"], env["lines"], env["find"], env["end_of"]
ops = {"BinOp": "binOp", "UnOp": "unOp", "CompoundOp": "compoundOp"}

def attrs_before(f, i):
    """the attributes directly above line i"""
    j = i - 1
    while j >= 0 and lines[f][j].strip() and not lines[f][j].startswith("}"): j -= 1
    return re.sub(r"\s+", "", "\n".join(l for l in lines[f][j+1:i] if not l.strip().startswith("//")))

def fields(f, a, b, names):
    """(name, feature, skip, default, line) of the fields in lines a..b"""
    out, pend, depth = [], "", 0
    for i in range(a + 1, b):
        l = lines[f][i].strip()
        if not l or l.startswith("//"): continue
        m = re.match(r"(?:pub(?:\(crate\))? )?((?:r#)?\w+): ", l) if depth == 0 and not l.startswith("#") else None
        if m:
            p = re.sub(r"\s+", "", pend); pend = ""
            name = m.group(1).replace("r#", "")
            gate = re.findall(r'#\[cfg\(feature="(\w+)"\)\]', p)
            p = re.sub(r'#\[cfg\(feature="(\w+)"\)\]', "", p)
            skip, default = "never", False
            for s in re.findall(r'#\[cfg_attr\(feature="serde",serde\((.*?)\)\)\]', p):
                for x in s.split(","):
                    if x == "default": default = True
                    elif x.startswith("rename="): name = x[8:-1]
                    else:
                        fn = re.fullmatch(r'skip_serializing_if="(.*)"', x).group(1)
                        skip = {"Option::is_none": "none", "empty_optional_vector": "allNone", "vec_empty_or_all_none": "someAllNone"}[fn]
            p = re.sub(r'#\[cfg_attr\(feature="serde",serde\((.*?)\)\)\]', "", p)
            p = re.sub(r'#\[node\([\w,]*\)\]|#\[visit\([^\]]*\)\]', "", p)
            assert not p, (f, i, p)
            assert len(gate) <= 1
            out.append((name, gate[0] if gate else None, skip, default, i + 1))
        else:
            pend += l
            depth += sum(l.count(c) for c in "([") - sum(l.count(c) for c in ")]")
    assert [x[0] for x in out] == [n.replace("r#", "") for n in names], (out, names)
    return out

rows_out, kinds_of = [], []
for cat, rust, file, rows in T:
    i = find(file, "pub enum BinOp") if rust == "BinOp" else find(file, rf"pub (struct|enum) {rust} \{{")
    e = end_of(file, i)
    at = attrs_before(file, i)
    assert re.search(r'#\[cfg_attr\(feature="serde",derive\((serde::)?(Deserialize|Serialize),(serde::)?(Serialize|Deserialize)\)\)\]', at), (rust, at)
    assert "serde(" not in at.replace("derive(serde::", ""), (rust, at)
    if rust in ops: kinds_of.append((cat, f"{rust}.variants.map .{ops[rust]}"))
    else: kinds_of.append((cat, "[" + ", ".join("." + row[0] for row in rows) + "]"))
    for row in rows:
        kind, variant, fl = row[0], row[1], row[2]
        fl = [(x.split(":") if ":" in x else [None, x]) for x in fl.split()]
        k = kind.split()[0]
        if rust in ops:
            rows_out.append((f".{k} op", f".newtype op.serdeName", f"`{rust}`, ast/{file} {i+1}–{e+1}"))
            continue
        if variant:
            vi = find(file, rf"^    {variant}\b", i); ve = end_of(file, vi)
            cite = f"`{rust}::{variant}`, ast/{file} {vi+1}" + (f"–{ve+1}" if ve > vi else "")
            # attributes of the variant itself
            j = vi - 1
            while j > i and lines[file][j].strip() and not re.match(r"    (\w|\})", lines[file][j]): j -= 1
            assert "serde" not in "\n".join(lines[file][j+1:vi]), (rust, variant)
        else:
            vi, ve = i, e
            cite = f"`{rust}`, ast/{file} {i+1}–{e+1}"
        if fl[0][0] is None:
            assert len(fl) == 1 and variant
            rows_out.append((f".{k}", f'.newtype c!"{variant}"', cite))
        else:
            fs = fields(file, vi, ve, [n for n, _ in fl])
            txt = []
            for n, g, s, d, ln in fs:
                o = [f'name := c!"{n}"']
                if g: o.append(f"gate := .{g}")
                if s != "never": o.append(f"skip := .{s}")
                if d: o.append("default := true")
                txt.append("{ " + ", ".join(o) + " }" if len(o) > 1 else f'.plain c!"{n}"')
            body = "[" + ", ".join(txt) + "]"
            rows_out.append((f".{k}", (f'.fields c!"{variant}" ' if variant else ".struct ") + body, cite))

def cap(s): return s[0].upper() + s[1:]
kinds = open("/verif/lean/Verif/Model/Ast/Kinds.lean").read()
opdefs = ""
for rust, cite in (("BinOp", "ast/mod.rs 2205–2225, 2291–2326"), ("UnOp", "ast/mod.rs 2360–2372"), ("CompoundOp", "ast/compound.rs 13–42")):
    names = re.search(rf"inductive {rust} where\n((?:  \|.*\n)+)", kinds).group(1)
    names = re.findall(r"\w+", names)
    text = "\n".join(l for f in lines.values() for l in f)
    for n in names:
        if rust == "BinOp": assert re.search(rf"\b{cap(n)} = \d+,", text), n
        else: assert re.search(rf"^    {cap(n)}\(TokenReference\),", text, re.M), n
    opdefs += f"/-- All variants of `{rust}` ({cite}). -/\ndef {rust}.variants : List {rust} :=\n  [" + ", ".join("." + n for n in names) + "]\n\n"
    opdefs += f"/-- The names of the variants of `{rust}` ({cite}). -/\ndef {rust}.serdeName : {rust} → Text\n"
    opdefs += "\n".join(f'  | .{n} => c!"{cap(n)}"' for n in names) + "\n\n"

doc = """import Verif.Model.Ast.Node

/-!
# How serde stores the node types

Written by `tools/gen_serde.py`, which reads the derives and the `serde` attributes of every struct and enum of ast/mod.rs,
ast/luau.rs, ast/lua52.rs, ast/lua54.rs and ast/compound.rs (feature `serde`, compiled by default: Cargo.toml 19).
-/

namespace FM

/-- The feature a field is compiled with. -/
inductive Gate where
  | always | luau | lua54
  deriving DecidableEq, Repr

/-- Whether the field exists. -/
def Gate.on (f : Features) : Gate → Bool
  | .always => true
  | .luau => f.luau
  | .lua54 => f.lua54

/-- `#[serde(skip_serializing_if = ...)]`. -/
inductive Skip where
  /-- no such attribute -/
  | never
  /-- `Option::is_none` -/
  | none
  /-- `empty_optional_vector` (util.rs 10–12) -/
  | allNone
  /-- `vec_empty_or_all_none` (util.rs 18–20) -/
  | someAllNone
  deriving DecidableEq, Repr

/-- A field as serde's derive sees it: its name, the feature it is compiled with, when it is left out, and whether it has
`#[serde(default)]`. -/
structure Stored where
  name : Text
  gate : Gate := .always
  skip : Skip := .never
  default : Bool := false
  deriving DecidableEq, Repr

/-- A field without attributes. -/
def Stored.plain (name : Text) : Stored := { name }

/-- How serde's derive stores a node type. -/
inductive Shape where
  /-- a struct: a map from field names -/
  | struct (fields : List Stored)
  /-- a variant with one unnamed field: a map from the name of the variant to the field -/
  | newtype (name : Text)
  /-- a variant with named fields: a map from the name of the variant to a map from field names -/
  | fields (name : Text) (fields : List Stored)
  /-- not derived: the containers of Model/Ast/Saved.lean -/
  | container
  deriving DecidableEq, Repr

""" + opdefs + """/-- How each node type is stored. -/
def Kind.shape : Kind → Shape
""" + "\n".join(f"  | {p} => {s}  -- {c}" for p, s, c in rows_out) + """
  | .absent | .present | .vec | .tuple | .punct | .pairEnd | .pairPunct | .span => .container

/-- The structs and variants of each Rust type. -/
def Cat.kinds : Cat → List Kind
""" + "\n".join(f"  | .{c} => {k}" for c, k in kinds_of) + """

end FM
"""
open("/verif/lean/Verif/Model/Ast/Shapes.lean", "w").write(doc)
