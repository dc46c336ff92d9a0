#!/usr/bin/env python3
"""Compare what the Lean model stores with serde (Ast.save, Err.save, Token.save) with the recorded snapshots of /repo.

This is a test of the model, not a proof: every tests/**/*.snap that holds a stored value is compared as a whole, names of
fields, order and values included, so it checks the lexer, the parser, the shapes of the nodes and the model of serde.
  * ast.snap: the block of pass cases, the tree of fail cases;
  * tokens.snap, tokens_result.snap: what Lexer::collect returns;
  * errors.snap: the errors.
"""
import json, pathlib, re, subprocess, sys
sys.path.insert(0, str(pathlib.Path(__file__).resolve().parent))
from conformance import ROOT, LEAN, cfg, body

DRIVER = r'''
import Verif.Model.SavedErrors
import Verif.Model.Parser.Parse
open FM FM.Parser
def hex (n : Nat) : String :=
  let d := Nat.toDigits 16 n
  String.ofList (List.replicate (4 - d.length) '0' ++ d)
def esc (s : Text) : String := "\"" ++ s.foldl (fun a ch =>
  a ++ (if ch == '"' then "\\\"" else if ch == '\\' then "\\\\" else if ch.toNat < 32 then "\\u" ++ hex ch.toNat else ch.toString)) "" ++ "\""
partial def json : Val → String
  | .null => "null"
  | .num n => toString n
  | .str s => esc s
  | .seq xs => "[" ++ ",".intercalate (xs.map json) ++ "]"
  | .map m => "{" ++ ",".intercalate (m.map fun p => esc p.1 ++ ":" ++ json p.2) ++ "}"
def run (path : String) (pass : Bool) (c : Cfg) : IO Unit := do
  let s ← IO.FS.readFile path
  IO.println s!"FILE {path}"
  match (Lexer.new c s.toList).bind (Lexer.collect c) with
  | .ok (.ok ts) => IO.println s!"tokens.snap {json (.seq (ts.map Token.save))}"
  | .ok r => IO.println s!"tokens_result.snap {json (r.save fun ts => .seq (ts.map Token.save))}"
  | _ => IO.println "PANIC"
  match parseFallible c s.toList with
  | .ok r =>
    IO.println s!"ast.snap {json (if pass then r.ast.nodes.save c.feat else r.ast.save c.feat)}"
    IO.println s!"errors.snap {json (.seq (r.errors.map Err.save))}"
  | _ => IO.println "PANIC"
def main : IO Unit := do
'''

ESC = {'n': '\n', 'r': '\r', 't': '\t', '0': '\0', 'e': '\x1b', 'a': '\x07', 'b': '\x08', 'v': '\x0b', 'f': '\x0c'}

def unescape(m):
    e = m.group(1)
    return chr(int(e[1:], 16)) if len(e) > 1 else ESC.get(e, e)

def scalar(s):
    if s == '~':
        return None
    if s == '[]':
        return []
    if s == '{}':
        return {}
    if s.startswith('"'):
        return re.sub(r'\\(x..|u....|.)', unescape, s[1:-1])
    if s.startswith("'"):
        return s[1:-1].replace("''", "'")
    return s

KEY = re.compile(r'^("(?:[^"\\]|\\.)*"|[A-Za-z_][\w]*):(?: (.*))?$')

def value(ls, i, ind):
    """The block value whose first line is ls[i], with indentation ind."""
    if ls[i][1].startswith('- ') or ls[i][1] == '-':
        out = []
        while i < len(ls) and ls[i][0] == ind and (ls[i][1].startswith('- ') or ls[i][1] == '-'):
            ls[i] = (ind + 2, ls[i][1][2:])
            v, i = value(ls, i, ind + 2)
            out.append(v)
        return out, i
    m = KEY.match(ls[i][1])
    if not m:
        return scalar(ls[i][1]), i + 1
    out = {}
    while i < len(ls) and ls[i][0] == ind:
        m = KEY.match(ls[i][1])
        if not m:
            break
        k = scalar(m.group(1))
        assert k not in out, k
        if m.group(2) is None:
            assert i + 1 < len(ls) and ls[i + 1][0] > ind or ls[i + 1][1].startswith('-'), ls[i]
            out[k], i = value(ls, i + 1, ls[i + 1][0])
        else:
            out[k] = scalar(m.group(2))
            i += 1
    return out, i

def load(path):
    ls = [(len(l) - len(l.lstrip(' ')), l.strip(' ')) for l in body(path).split('\n') if l.strip()]
    v, i = value(ls, 0, ls[0][0])
    assert i == len(ls), (path, ls[i])
    return v

def norm(v):
    if isinstance(v, dict):
        return {k: norm(x) for k, x in v.items()}
    if isinstance(v, list):
        return [norm(x) for x in v]
    return v if v is None else str(v)

def diff(a, b, at=''):
    """The first difference: a is wanted, b the model's."""
    if type(a) is not type(b):
        return '%s: want %s, got %s' % (at, json.dumps(a)[:120], json.dumps(b)[:120])
    if isinstance(a, dict):
        if list(a) != list(b):
            return '%s: fields want %s, got %s' % (at, list(a), list(b))
        for k in a:
            d = diff(a[k], b[k], at + '.' + k)
            if d:
                return d
    elif isinstance(a, list):
        if len(a) != len(b):
            return '%s: length want %d, got %d' % (at, len(a), len(b))
        for i, (x, y) in enumerate(zip(a, b)):
            d = diff(x, y, '%s[%d]' % (at, i))
            if d:
                return d
    elif a != b:
        return '%s: want %r, got %r' % (at, a, b)
    return None

def main():
    sources = sorted(ROOT.glob('**/source.lua'))
    drv = DRIVER + ''.join('  run %s %s %s\n' % (json.dumps(str(p)), 'true' if 'pass' in p.parts else 'false',
                                                cfg(p.relative_to(ROOT).parts[0])) for p in sources)
    tmp = pathlib.Path('/tmp/conformance_tree.lean')
    tmp.write_text(drv)
    res = subprocess.run(['lake', 'env', 'lean', '--run', str(tmp)], cwd=LEAN, capture_output=True, text=True)
    if res.returncode:
        print(res.stdout[-3000:], res.stderr[-3000:])
        return 1
    got, cur = {}, None
    for line in res.stdout.split('\n'):
        tag, _, rest = line.partition(' ')
        if tag == 'FILE':
            cur = got.setdefault(rest, {})
        elif tag == 'PANIC':
            cur[tag] = True
        elif tag:
            cur[tag] = norm(json.loads(rest))
    checks, bad = {}, 0
    for p in sources:
        r = got[str(p)]
        for name in ('ast.snap', 'tokens.snap', 'tokens_result.snap', 'errors.snap'):
            q = p.parent / name
            if not q.exists() or (name == 'tokens.snap' and 'tokenizer' in p.parts):  # left over from other tests
                continue
            checks[name] = checks.get(name, 0) + 1
            want = norm(load(q))
            d = diff(want, r[name]) if name in r else 'nothing to compare with'
            if d:
                bad += 1
                print(q.relative_to(ROOT), d[:400])
    print('%d sources, %d disagreements; compared: %s' % (len(sources), bad, checks))
    return 1 if bad else 0

if __name__ == '__main__':
    sys.exit(main())
