#!/usr/bin/env python3
"""Write lean/Verif/Proofs/Parser/Kinds.lean: what the grammar and the print order say about each kind of node."""
import re, pathlib
root = pathlib.Path(__file__).resolve().parent.parent / "lean/Verif"
src = (root / "Model/Ast/Kinds.lean").read_text()
body = src[src.index("inductive Kind where"):]
body = body[:body.index("deriving")]
kinds = re.findall(r"^  \| ([\w«»]+)(?: \((\w+) : (\w+)\))?", body, re.M)
lay = src[src.index("def Kind.layout"):]
special_layout = set(re.findall(r"^  \| \.(\w+) => some", lay, re.M))
g = (root / "Spec/Grammar.lean").read_text()
conn = g[g.index("def Connected"):g.index("/-- Separators stand between")]
special_conn = set(re.findall(r"^  \| \.(\w+), \[", conn, re.M))
av = g[g.index("def available"):g.index("/-! ## Operators -/")]
special_av = set(re.findall(r"\.(\w+)", "\n".join(l.split("=>")[0] for l in av.split("\n") if l.startswith("  | ."))))
luau = set(re.findall(r"\.(\w+)", g[g.index("def luauKinds"):g.index("/-- The versions in which")]))
out = ["import Verif.Proofs.Ast.View", "import Verif.Spec.Grammar", "",
       "/-! Helper lemmas, written by tools/gen_kinds.py: availability, side conditions and print order of each kind. -/", "",
       "namespace FM.Parser", "open FM.Spec", "variable {c : Cfg} {cs : List Node}", ""]
for k, v, t in kinds:
    arg = f"({v} : {t}) " if v else ""
    app = f"(.{k} {v})" if v else f".{k}"
    if k not in special_av:
        rhs = "c.luau" if k in luau else "true"
        out.append(f"@[simp] theorem available_{k} {arg}: available c {app} = {rhs} := rfl")
    if k not in special_conn:
        out.append(f"@[simp] theorem connected_{k} {arg}: Connected c {app} cs = True := rfl")
    if k not in special_layout:
        out.append(f"@[simp] theorem flat_{k}_plain {arg}: (Node.node {app} cs).flat = cs.flatMap Node.flat := Node.flat_plain rfl cs")
view = (root / "Proofs/Ast/View.lean").read_text()
def those(name):
    d = view[view.index("def " + name):]
    return re.findall(r"\.(\w+)", d[:d.index("=> true")].split("Bool", 1)[1])
for k in those("Kind.wraps"):
    out.append(f"@[simp] theorem flat_{k}_wrap (o e : TokRef) (x : Node) :\n    (Node.node .{k} [.spanOf (.tok o) (.tok e), x]).flat = o :: (x.flat ++ [e]) := flat_wrap rfl o e x")
for k in those("Kind.wrapsSecond"):
    out.append(f"@[simp] theorem flat_{k}_wrap (b : Node) (o e : TokRef) (x : Node) :\n    (Node.node .{k} [b, .spanOf (.tok o) (.tok e), x]).flat = b.flat ++ o :: (x.flat ++ [e]) := flat_wrapSecond rfl b o e x")
out += ["", "end FM.Parser", ""]
(root / "Proofs/Parser/Kinds.lean").write_text("\n".join(out))

luau_src = (root / "Spec/Luau.lean").read_text()
ch = luau_src[luau_src.index("def Chosen"):]
special_ch = {}
for m in re.finditer(r"^  \| \.(\w+), \[([^\n]*?)\] => ((?:.*\n)(?:      .*\n)*)", ch, re.M):
    special_ch[m.group(1)] = (m.group(2), m.group(3).strip())
out = ["import Verif.Spec.Luau", "",
       "/-! Helper lemmas, written by tools/gen_kinds.py: the kinds of nodes that have only one reading. -/", "",
       "namespace FM.Parser", "open FM.Spec", "variable {cs : List Node}", ""]
for k, v, t in kinds:
    arg = f"({v} : {t}) " if v else ""
    app = f"(.{k} {v})" if v else f".{k}"
    if k not in special_ch:
        out.append(f"@[simp] theorem chosen_{k} {arg}: Chosen {app} cs = True := rfl")
out += ["", "end FM.Parser", ""]
(root / "Proofs/Parser/KindsLuau.lean").write_text("\n".join(out))
print(sorted(special_ch))
