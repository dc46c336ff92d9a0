#!/usr/bin/env python3
"""Writes AXIOMS.md: the axioms of every theorem named in MANIFEST.json.  Needs a finished `lake build`."""
import json, pathlib, re, subprocess, tempfile, collections
HERE = pathlib.Path(__file__).resolve().parent.parent
claims = json.load(open(HERE / 'MANIFEST.json'))['claims']
names = [(c['property'], t) for c in claims for t in c['theorems']]
src = 'import Verif\nopen FM FM.Props\n' + ''.join(f'#print axioms {t}\n' for _, t in names)
with tempfile.NamedTemporaryFile('w', suffix='.lean', delete=False) as f:
    f.write(src)
run = subprocess.run(['lake', 'env', 'lean', f.name], cwd=HERE / 'lean', capture_output=True, text=True)
out = re.sub(r'\s+', ' ', run.stdout)
found = {}
for m in re.finditer(r"'([^']+)' (?:depends on axioms: \[([^\]]*)\]|does not depend on any axioms)", out):
    found[m.group(1).split('.')[-1]] = m.group(2) or '—'
lines = ['# Axioms of the theorems in MANIFEST.json', '', 'Generated by `tools/axioms.py` with `#print axioms`.', '',
         '| property | theorem | axioms |', '|---|---|---|']
bad = []
for p, t in names:
    a = found.get(t.split('.')[-1])
    if a is None or not set(a.replace('—', '').replace(' ', '').split(',')) <= {'', 'propext', 'Classical.choice', 'Quot.sound'}:
        bad.append((t, a))
    lines.append(f'| {p} | `{t}` | {a} |')
(HERE / 'AXIOMS.md').write_text('\n'.join(lines) + '\n')
print(len(names), 'theorems;', 'problems:', bad)
if bad: print(run.stdout[:2000], run.stderr[:2000])
