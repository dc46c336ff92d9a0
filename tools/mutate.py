"""Runs wrong programs: for every entry of tools/mutants.json not yet in seeded/LOG.jsonl, edits a scratch copy of the
model, rebuilds, and appends what happened to seeded/LOG.jsonl.

usage: mutate.py [scratch directory]
"""
import json, os, re, subprocess, sys, shutil

SCRATCH = sys.argv[1] if len(sys.argv) > 1 else "/tmp/mut"
SRC = "/verif/lean"
LOG = "/verif/seeded/LOG.jsonl"
BASE = "/tmp/mutbase"


def reset():
    subprocess.run(["rm", "-rf", SCRATCH], check=True)
    subprocess.run(["cp", "-a", BASE, SCRATCH], check=True)


def declaration(path, line):
    """The name of the declaration a line of a file belongs to."""
    ls = open(path).read().split("\n")[:line]
    for l in reversed(ls):
        m = re.match(r"\s*(?:@\[.*?\]\s*)?(?:private |protected )*(theorem|def|example|instance|abbrev|lemma)\s*(\S+)?", l)
        if m and not l.startswith("    "):
            return "example" if m.group(1) == "example" else (m.group(2) or m.group(1))
    return "?"


def imports():
    g = {}
    for d, _, fs in os.walk(SRC + "/Verif"):
        for f in fs:
            if f.endswith(".lean"):
                p = os.path.join(d, f)
                m = p[len(SRC) + 1:-5].replace("/", ".")
                g[m] = re.findall(r"^import (Verif\.\S+)", open(p).read(), re.M)
    return g


def blocked(failed):
    g = imports()
    bad = set(failed)
    changed = True
    while changed:
        changed = False
        for m, deps in g.items():
            if m not in bad and any(d in bad for d in deps):
                bad.add(m)
                changed = True
    return sorted(m for m in bad if m.startswith("Verif.Props.") and m not in failed)


def run(m):
    reset()
    p = os.path.join(SCRATCH, "Verif", m["file"])
    s = open(p).read()
    if s.count(m["old"]) < 1:
        print("no such text:", m["id"], file=sys.stderr)
        return
    s = s.replace(m["old"], m["new"], 1)
    open(p, "w").write(s)
    r = subprocess.run(["lake", "build"] + m.get("targets", []), cwd=SCRATCH, capture_output=True, text=True, timeout=3600)
    out = r.stdout + r.stderr
    fails, mods = [], []
    for f, line in re.findall(r"error: (Verif/\S+?\.lean):(\d+):\d+", out):
        d = declaration(os.path.join(SCRATCH, f), int(line))
        e = f[6:-5].replace("/", ".") + ":" + d
        if e not in fails:
            fails.append(e)
    for x in re.findall(r"^- (Verif\.\S+)", out, re.M):
        if x not in mods:
            mods.append(x)
    rec = dict(id=m["id"], definition=m["def"], edit=m["edit"], breaks=m["claim"], failed=fails,
               property_files_not_rebuilt=blocked(mods), tightened=m.get("tightened", []))
    if "targets" in m:
        rec["built"] = m["targets"]
    if not fails and r.returncode != 0:
        rec["build"] = out[-300:]
    if r.returncode == 0:
        rec["survived"] = True
    with open(LOG, "a") as f:
        f.write(json.dumps(rec, ensure_ascii=False) + "\n")
    print(m["id"], "failed" if fails else "SURVIVED" if r.returncode == 0 else "??", fails[:4], flush=True)


def main():
    done = {json.loads(l)["id"] for l in open(LOG) if l.strip()}
    if not os.path.exists(BASE) or "--base" in sys.argv:
        subprocess.run(["rm", "-rf", BASE], check=True)
        subprocess.run(["cp", "-a", SRC, BASE], check=True)
    for m in sorted(json.load(open("/verif/tools/mutants.json")), key=lambda m: ("targets" not in m, -int(re.sub(r"\D", "", m["id"])))):
        if m["id"] not in done:
            run(m)


main()
