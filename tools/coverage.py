#!/usr/bin/env python3
"""Which functions of /repo are cited by the model?  Writes COVERAGE.md: every function outside tests, with the model
definitions that cite its lines."""
import pathlib, re, collections
HERE = pathlib.Path(__file__).resolve().parent.parent
ROOTS = [pathlib.Path('/repo/full-moon/src'), pathlib.Path('/repo/full-moon-derive/src')]
cited = collections.defaultdict(list)   # path -> [(lo, hi, module)]
def find(file):
    for r in ROOTS:
        if (r / file).exists(): return r / file
    c = [p for r in ROOTS for p in r.rglob('*.rs') if str(p).endswith('/' + file)]
    return c[0] if len(c) == 1 else None
NUM = r'\d+(?:[–-]\d+)?'
for f in sorted((HERE / 'lean/Verif/Model').rglob('*.lean')):
    text = f.read_text()
    for m in re.finditer(r'([\w/\-]+\.rs)`?,?\s+(?:lines\s+)?(%s(?:\)?,?\s+(?:and\s+)?(?:`[^`]*`\s+)?\(?%s)*)' % (NUM, NUM), text):
        path = find(m.group(1))
        if not path: continue
        for r in re.findall(NUM, m.group(2)):
            lo, _, hi = r.replace('-', '–').partition('–')
            cited[path].append((int(lo), int(hi or lo), f.stem))
    # "(505–525)" style: further ranges of the same comment that name no file
    for c in re.finditer(r'/-- (.*?)-/', text, re.S):
        files = re.findall(r'([\w/\-]+\.rs)', c.group(1))
        if len(set(files)) == 1 and find(files[0]):
            for r in re.findall(r'(?<![\w.])(\d{2,4}–\d{2,4}|\d{3,4})(?!\w)', c.group(1)):
                lo, _, hi = r.partition('–')
                cited[find(files[0])].append((int(lo), int(hi or lo), f.stem))
out = ['# Functions of /repo and the model modules that cite them', '',
       'Generated by `tools/coverage.py`.  A function counts as modelled if a definition of `lean/Verif/Model` cites its lines.', '']
n = k = 0
missing = []
for root in ROOTS:
    for path in sorted(root.rglob('*.rs')):
        src = path.read_text().split('\n')
        rows = []
        intest = False
        for i, l in enumerate(src):
            if re.match(r'\s*#\[cfg\(test\)\]', l): intest = True
            if l.startswith('/*'): intest = True
            if intest: break
            g = re.match(r'(\s*)(?:pub(?:\([\w ]+\))? )?(?:const )?(?:unsafe )?fn (\w+)', l)
            if not g: continue
            end = i
            if not l.rstrip().endswith(';'):
                for j in range(i, len(src)):
                    if src[j].startswith(g.group(1) + '}') or (j == i and l.rstrip().endswith('}')): end = j; break
            mods = sorted({m for lo, hi, m in cited[path] if lo <= end + 1 and hi >= i + 1})
            n += 1
            if mods: k += 1
            else: missing.append((path, i + 1, g.group(2)))
            rows.append((g.group(2), i + 1, end + 1, mods))
        if rows:
            out += [f'## {path.relative_to("/repo")}', '', '| function | lines | cited by |', '|---|---|---|']
            out += [f'| `{a}` | {b}–{c} | {", ".join(d) or "**not modelled**"} |' for a, b, c, d in rows]
            out.append('')
out.insert(3, f'{k} of {n} functions are cited.')
out.insert(4, '')
(HERE / 'COVERAGE.md').write_text('\n'.join(out) + '\n')
print(k, n)
for p, i, name in missing: print(f'{p.relative_to("/repo")}:{i} {name}')
