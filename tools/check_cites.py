#!/usr/bin/env python3
"""Check the citations in the model: `name` (file lo–hi) must name something defined inside those lines of /repo."""
import pathlib, re, sys
ROOT = pathlib.Path('/repo/full-moon/src')
ROOTS = [ROOT, pathlib.Path('/repo/full-moon-derive/src'), pathlib.Path('/repo')]
bad = total = 0
for f in sorted((pathlib.Path(__file__).resolve().parent.parent / 'lean/Verif/Model').rglob('*.lean')):
    for i, line in enumerate(f.read_text().split('\n'), 1):
        for m in re.finditer(r'`([^`]+)`[^`()]*\(`?([\w/.\-]+\.rs)`? ([\d–, \n]+)\)', line):
            name, file, ranges = m.groups()
            path = next((r / file for r in ROOTS if (r / file).exists()), None)
            total += 1
            if path is None:
                print(f'{f.name}:{i}: no file {file}'); bad += 1; continue
            src = path.read_text().split('\n')
            ident = re.findall(r'\w+', name)
            ident = ident[-1] if ident else name
            ok = False; out = False
            for r in ranges.split(','):
                r = r.strip()
                if not r: continue
                lo, _, hi = r.partition('–')
                lo, hi = int(lo), int(hi or lo)
                if hi > len(src): out = True
                text = '\n'.join(src[lo-1:hi])
                if re.search(r'\b%s\b' % re.escape(ident), text): ok = True
            # part of a function: the lines lie inside a function of that name
            for k, l in enumerate(src):
                g = re.match(r'(\s*)(?:pub(?:\(crate\))? )?fn %s\b' % re.escape(ident), l)
                if g:
                    end = next(j for j in range(k, len(src)) if src[j] == g.group(1) + '}')
                    if all(k + 1 <= int(x) <= end + 1 for x in re.findall(r'\d+', ranges)): ok = True
            if not ok or out:
                print(f'{f.name}:{i}: `{name}` not in {file} {ranges}'); bad += 1
print(f'{total} citations, {bad} suspicious')
