#!/usr/bin/env python3
"""Try wrong programs on the proofs, faster than mutate.py and less detailed.

usage: mutfast.py SPEC.json [ID ...]

For each entry of SPEC (see mutate.py) the model is edited in a scratch copy of lean/ and everything is built once. Reported are
the proofs which broke and the theorems of MANIFEST.json which use one of them, directly or not, according to the
dependencies of the unedited project. Modules after a broken one are not built, so the list is a lower bound; a wrong program
which breaks nothing at all is reported as SURVIVED. First only the modules with the theorems of the properties it should break
are built, and the others only if nothing is broken there. Results go to /tmp/mut/ID.json; nothing in the repository is changed."""
import json, os, pathlib, re, shutil, subprocess, sys, time
root = pathlib.Path(__file__).resolve().parent.parent
work = pathlib.Path(os.environ.get("MUTWORK", "/tmp/mut/fast"))
DECL = re.compile(r"^(?:@\[[^\]]*\]\s*)?(?:private |protected |noncomputable |local )*(theorem|lemma|example|def|abbrev|instance|structure|inductive)\b[ ]*(\S*)")

GRAPH = '''import Verif
open Lean
run_cmd do
  let env ← getEnv
  let mut out := #[]
  for (n, ci) in env.constants.map₁.toList do
    if n.getRoot == `UTide then
      out := out.push (toString n ++ "\\t" ++ " ".intercalate
        ((ci.getUsedConstantsAsSet.toList.filter (fun m => m.getRoot == `UTide)).map toString))
  IO.FS.writeFile "graph.tsv" ("\\n".intercalate out.toList)
'''

def sync():
    """make `work` a copy of lean/, copying only what differs in size or time"""
    src = root / "lean"
    have = {}
    for d, _, fs in os.walk(src):
        for x in fs:
            p = pathlib.Path(d) / x
            have[p.relative_to(src)] = p
    for d, _, fs in os.walk(work):
        for x in fs:
            p = pathlib.Path(d) / x
            if p.relative_to(work) not in have and x not in ("graph.tsv", "Graph.lean"): p.unlink()
    for r, p in have.items():
        q = work / r
        if p.is_symlink():
            if not q.is_symlink(): q.parent.mkdir(parents=True, exist_ok=True); q.symlink_to(os.readlink(p))
            continue
        a = p.stat()
        if q.exists():
            b = q.stat()
            if (a.st_size, a.st_mtime_ns) == (b.st_size, b.st_mtime_ns): continue
        q.parent.mkdir(parents=True, exist_ok=True)
        shutil.copy2(p, q)

def users():
    """direct users of each constant"""
    (work / "Graph.lean").write_text(GRAPH)
    subprocess.run(["lake", "env", "lean", "Graph.lean"], cwd=work, check=True)
    up = {}
    for l in (work / "graph.tsv").read_text().splitlines():
        n, ds = l.split("\t")
        for d in ds.split(): up.setdefault(d, []).append(n)
    return up

def closure(up, start):
    seen, todo = set(start), list(start)
    while todo:
        for n in up.get(todo.pop(), []):
            if n not in seen: seen.add(n); todo.append(n)
    return seen

def own(claims):
    """the modules with the theorems of these properties"""
    res = []
    for p in sorted((work / "Verif/Props").glob("*.lean")):
        if any(re.search(rf"^theorem {c}_", p.read_text(), re.M) for c in claims): res.append("Verif.Props." + p.stem)
    return res

def build(targets):
    try:
        r = subprocess.run(["lake", "build", *targets], cwd=work, capture_output=True, text=True, timeout=1500)
        return r.returncode == 0, r.stdout + r.stderr
    except subprocess.TimeoutExpired as e:
        return False, (e.stdout or b"").decode() + "\nTIMEOUT"

def broken(out):
    res = set()
    for file, ln in set(re.findall(r"error: (Verif/\S+\.lean):(\d+):\d+:", out)):
        p = work / file
        lines = p.read_text().split("\n")
        for i in range(int(ln) - 1, -1, -1):
            m = DECL.match(lines[i])
            if m:
                res.add((p.stem, m.group(1), m.group(2).rstrip(":")))
                break
    return res

work.mkdir(parents=True, exist_ok=True)
sync()
up = users()
names = [n for c in json.loads((root / "MANIFEST.json").read_text())["claims"] for n in c["theorems"]]
consts = set(up) | {n for v in up.values() for n in v}
specs = json.loads(pathlib.Path(sys.argv[1]).read_text())
for sp in specs:
    if len(sys.argv) > 2 and sp["id"] not in sys.argv[2:]: continue
    t0 = time.time()
    sync()
    f = work / "Verif" / sp["file"]
    s = f.read_text()
    bad = [o for o, _ in sp["edits"] if s.count(o) != 1]
    if bad:
        print(sp["id"], "CANNOT EDIT", bad, flush=True); continue
    for old, new in sp["edits"]: s = s.replace(old, new)
    f.write_text(s)
    fine, out = build(own(sp["claims"]))
    if fine: fine, out = build([])
    br = broken(out)
    model = [b for b in br if (work / "Verif/Model" / (b[0] + ".lean")).exists()]
    start = {c for c in consts for b in br if b[1] != "example" and (c == "UTide." + b[2] or c == "UTide.Props." + b[2] or
        (b[2] and c.endswith("." + b[2])))}
    hit = closure(up, start)
    aff = [n.split(".")[-1] for n in names if n in hit or "UTide.Props." + n in hit or "UTide." + n in hit]
    mine = [n for n in aff if n.split("_")[0] in sp["claims"]]
    res = dict(sp, broke=sorted(f"{b[0]}: {b[1]} {b[2]}" if b[1] == "example" else f"{b[0]}: {b[2]}" for b in br), affected=aff, unaffected=[],
               stuck=["one pass"], seconds=round(time.time() - t0))
    verdict = "MODEL DOES NOT BUILD" if model else "SURVIVED" if fine else "NOT ITS OWN" if not mine else "ok"
    if not model: pathlib.Path(f"/tmp/mut/{sp['id']}.json").write_text(json.dumps(res, indent=1, ensure_ascii=False))
    print(sp["id"], verdict, "broke", len(br), "affected", len(aff), "own", mine[:4], res["seconds"], flush=True)
