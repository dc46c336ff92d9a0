#!/usr/bin/env python3
"""Run the Lean model of the parser on the test sources of /repo and compare with the recorded snapshots.

This is a test of the model, not a proof: it checks that the transcription agrees with the outputs that the Rust
code is known to produce.  For every tests/**/source.lua it compares
  * pass cases: no errors, and the printed tree is the source;
  * fail cases: errors.snap (kind, message, token positions, ranges, in order) and ast_to_string.snap;
  * all cases: the positions of every token and trivia in ast.snap, as a multiset.
"""
import collections, json, pathlib, re, subprocess, sys

ROOT = pathlib.Path('/repo/full-moon/tests')
LEAN = pathlib.Path(__file__).resolve().parent.parent / 'lean'
CFG = {
    'cases': ('', '.lua51'), 'roblox_cases': ('luau', '.only .luau'), 'lua52_cases': ('lua52', '.only .lua52'),
    'lua53_cases': ('lua52 lua53', '.only .lua53'), 'lua54_cases': ('lua52 lua53 lua54', '.only .lua54'),
    'luajit_cases': ('luajit', '.only .luajit'), 'cfxlua_cases': ('lua52 lua53 lua54 luajit cfxlua', '.only .cfxlua'),
}
DRIVER = r'''
import Verif.Model.Parser.Parse
open FM FM.Parser
def pos (p : Position) : String := s!"{p.bytes} {p.line} {p.character}"
def tokPos (t : Token) : String := s!"{pos t.start} {pos t.stop}"
def refPos (t : TokRef) : List String := t.leading.map tokPos ++ [tokPos t.token] ++ t.trailing.map tokPos
def errLine : Err → String
  | .tokenizer e => s!"T {pos e.range.1} {pos e.range.2}"
  | .ast t m r => s!"A {tokPos t}{match r with | none => "" | some (a, b) => s!" {pos a} {pos b}"}|{m}"
def esc (s : String) : String := s.foldl (fun a ch => a ++ (if ch == '\n' then "\\n" else if ch == '\\' then "\\\\" else if ch == '\r' then "\\r" else ch.toString)) ""
def run (path : String) (c : Cfg) : IO Unit := do
  let s ← IO.FS.readFile path
  IO.println s!"FILE {path}"
  match parseFallible c s.toList with
  | .panic => IO.println "PANIC"
  | .diverge => IO.println "DIVERGE"
  | .ok r =>
    IO.println s!"DISPLAY {esc (String.ofList r.ast.display)}"
    IO.println s!"UPDATED {esc (String.ofList (r.ast.updatePositions c.feat).display)}"
    for e in r.errors do IO.println s!"ERR {errLine e}"
    for t in r.ast.nodes.tokens do
      for l in refPos t do IO.println s!"TOK {l}"
    for l in refPos r.ast.eof do IO.println s!"EOF {l}"
def main : IO Unit := do
'''

def cfg(folder):
    feats, ver = CFG[folder]
    names = ['luau', 'lua52', 'lua53', 'lua54', 'luajit', 'cfxlua']
    return '⟨{%s}, %s⟩' % (', '.join('%s := %s' % (n, 'true' if n in feats.split() else 'false') for n in names), ver)

def body(path):
    text = path.read_text()
    return text.split('\n---\n', 1)[1]

NUM = re.compile(r'(?:bytes|line|character): (\d+)')

def unquote(s):
    s = s.strip()
    if s.startswith('"'):
        return json.loads(s)
    if s.startswith("'"):
        return s[1:-1].replace("''", "'")
    return s

def snap_errors(path):
    out, cur = [], None
    for line in body(path).split('\n'):
        if line.startswith('- '):
            cur = [line[2], [], '']
            out.append(cur)
        elif cur is not None:
            m = NUM.search(line)
            if m:
                cur[1].append(m.group(1))
            elif line.startswith('    additional: '):
                cur[2] = unquote(line[len('    additional: '):])
    return ['%s %s%s' % (k, ' '.join(n), '|' + a if k == 'A' else '') for k, n, a in out]

def snap_tokens(path):
    out, nums = collections.Counter(), []
    for line in body(path).split('\n'):
        m = NUM.search(line)
        if m and line.strip().lstrip('- ').startswith(('bytes', 'line', 'character')):
            nums.append(m.group(1))
            if len(nums) == 6:
                out[' '.join(nums)] += 1
                nums = []
    return out

def snap_string(path):
    text = body(path)
    text = text[:-1] if text.endswith('\n') else text
    if text.startswith(('"', "'")):
        return unquote(text)
    if text.startswith('|'):
        lines = text.split('\n')
        keep = lines[0][1:]
        rest = '\n'.join(l[2:] for l in lines[1:])
        return rest
    return text.strip()

def main():
    sources = sorted(ROOT.glob('**/source.lua'))
    drv = DRIVER + ''.join('  run %s %s\n' % (json.dumps(str(p)), cfg(p.relative_to(ROOT).parts[0])) for p in sources)
    tmp = pathlib.Path('/tmp/conformance.lean')
    tmp.write_text(drv)
    res = subprocess.run(['lake', 'env', 'lean', '--run', str(tmp)], cwd=LEAN, capture_output=True, text=True)
    if res.returncode:
        print(res.stdout[-3000:], res.stderr[-3000:])
        return 1
    results, cur = {}, None
    for line in res.stdout.split('\n'):
        tag, _, rest = line.partition(' ')
        if tag == 'FILE':
            cur = results.setdefault(rest, {'ERR': [], 'TOK': collections.Counter(), 'EOF': collections.Counter()})
        elif tag == 'ERR':
            cur['ERR'].append(rest)
        elif tag in ('TOK', 'EOF'):
            cur[tag][rest] += 1
        elif tag in ('DISPLAY', 'UPDATED'):
            cur[tag] = rest.replace('\\\\', '\0').replace('\\n', '\n').replace('\\r', '\r').replace('\0', '\\')
        elif tag:
            cur[tag] = True
    bad, checks = 0, collections.Counter()
    for p in sources:
        r = results[str(p)]
        src = p.read_bytes().decode()
        msgs = []
        if 'PANIC' in r or 'DIVERGE' in r:
            msgs.append('panic or divergence')
        else:
            d = p.parent
            if 'pass' in p.parts:
                checks['pass'] += 1
                if r['ERR']:
                    msgs.append('errors %s' % r['ERR'])
                if r['DISPLAY'] != src:
                    msgs.append('display %r' % r['DISPLAY'])
            else:
                if (d / 'errors.snap').exists():
                    checks['errors'] += 1
                    want = snap_errors(d / 'errors.snap')
                    if want != r['ERR']:
                        msgs.append('errors\n    want %s\n    got  %s' % (want, r['ERR']))
                if (d / 'ast_to_string.snap').exists():
                    checks['string'] += 1
                    want = snap_string(d / 'ast_to_string.snap')
                    if want.strip() != r['UPDATED'].strip():
                        msgs.append('string\n    want %r\n    got  %r' % (want, r['UPDATED']))
            if (d / 'ast.snap').exists():
                checks['tokens'] += 1
                want = snap_tokens(d / 'ast.snap')
                got = r['TOK'] if 'pass' in p.parts else r['TOK'] + r['EOF']
                if want != got:
                    msgs.append('tokens\n    missing %s\n    extra   %s' % (want - got, got - want))
        if msgs:
            bad += 1
            print(p.relative_to(ROOT))
            for m in msgs:
                print('  ' + m[:700])
    print('%d sources, %d disagree; checks: %s' % (len(sources), bad, dict(checks)))
    return 1 if bad else 0

if __name__ == '__main__':
    sys.exit(main())
