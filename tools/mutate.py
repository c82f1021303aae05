#!/usr/bin/env python3
"""Try wrong programs on the proofs, in a scratch copy outside the repository.

usage: mutate.py SPEC.json [ID ...]

SPEC is a list of {"id", "file", "definition", "claims", "claim", "edits": [[old, new], ...]}. For each entry the
model is edited in a copy of lean/, the modules with theorems about the claims are rebuilt, and every proof which breaks is replaced by `sorry` until the rest
builds again. Reported are the proofs which broke and the theorems of MANIFEST.json which depend on one of them.
The result goes to /tmp/mut/ID.json; nothing in the repository is changed."""
import json, os, pathlib, re, shutil, subprocess, sys, time
root = pathlib.Path(__file__).resolve().parent.parent
work = pathlib.Path(os.environ.get("MUTWORK", "/tmp/mut/work"))
DECL = re.compile(r"^(?:@\[[^\]]*\]\s*)?(?:private |protected |noncomputable |local )*(theorem|lemma|example|def|abbrev|instance|structure|inductive)\b[ ]*(\S*)")
TOP = re.compile(r"^(?:@\[|private |protected |noncomputable |local |theorem|lemma|example|def |abbrev|instance|structure|inductive|/-|end\b|section|namespace|open|variable|set_option|#|macro|syntax|notation)")

def run(cmd, cwd, timeout):
    try:
        r = subprocess.run(cmd, cwd=cwd, capture_output=True, text=True, timeout=timeout)
        return r.returncode, r.stdout + r.stderr
    except subprocess.TimeoutExpired as e:
        return 124, (e.stdout or b"").decode() + "\nTIMEOUT"

def blocks(lines):
    """(kind, name, first line, end) of the declarations of a file"""
    starts = [i for i, l in enumerate(lines) if TOP.match(l)] + [len(lines)]
    # a comment block may contain lines at column zero; good enough for this project
    out = []
    for a, b in zip(starts, starts[1:]):
        m = DECL.match(lines[a])
        if not m:
            k = a
            if lines[a].startswith("@["):
                pass
            continue
        out.append((m.group(1), m.group(2).rstrip(":"), a, b))
    return out

def split(text):
    """position of the `:=` (or first alternative) which starts the proof"""
    depth, i = 0, 0
    while i < len(text):
        ch = text[i]
        if ch in "([{⟨": depth += 1
        elif ch in ")]}⟩": depth -= 1
        elif depth == 0 and text.startswith(":=", i):
            if not re.search(r"\blet\b", text[text.rfind("\n", 0, i) + 1:i]): return i
        elif depth == 0 and text.startswith(" where\n", i): return i
        elif depth == 0 and text.startswith("\n  | ", i): return i
        i += 1
    return None

def patch(path, errs, log):
    """put `sorry` into the proofs in which the given lines lie; False if nothing could be done"""
    lines = path.read_text().split("\n")
    hit = {}
    for blk in blocks(lines):
        inside = [l for l in errs if blk[2] <= l - 1 < blk[3]]
        if inside: hit[blk] = inside
    done = False
    for (kind, name, a, b), inside in sorted(hit.items(), key=lambda x: -x[0][2]):
        body = "\n".join(lines[a:b])
        k = split(body)
        if kind == "example":
            lines[a:b] = [f"example : True := trivial -- was: {name}", ""]
            log.add(f"{path.stem}: example {' '.join(body.split())[8:60]}")
        elif kind not in ("theorem", "lemma"):
            log.add(f"{path.stem}: {kind} {name}")
            continue
        elif k is None or body[k:].strip() == ":= by sorry":
            log.add(f"{path.stem}: statement of {name}")
            continue
        else:
            lines[a:b] = (body[:k] + " := by sorry\n").split("\n")
            log.add(f"{path.stem}: {name}")
        done = True
    path.write_text("\n".join(lines))
    return done

def one(spec):
    t0 = time.time()
    if work.exists(): shutil.rmtree(work)
    work.parent.mkdir(exist_ok=True)
    subprocess.run(["cp", "-a", str(root / "lean"), str(work)], check=True)
    f = work / "Verif" / spec["file"]
    s = f.read_text()
    for old, new in spec["edits"]:
        assert s.count(old) == 1, (spec["id"], old, s.count(old))
        s = s.replace(old, new)
    f.write_text(s)
    log, stuck = set(), []
    props = sorted((work / "Verif/Props").glob("*.lean"))
    pat = re.compile(r"^theorem ((" + "|".join(spec["claims"]) + r")_\S+)", re.M)
    where = {p.stem: [x[0] for x in pat.findall(p.read_text())] for p in props}
    mods = ["Verif.Props." + k for k, v in where.items() if v]
    mine = [n for v in where.values() for n in v]
    for it in range(60):
        rc, out = run(["lake", "build"] + mods, work, 4000)
        errs = re.findall(r"error: (Verif/\S+\.lean):(\d+):\d+:", out)
        if rc == 0: break
        if not errs:
            stuck.append("no error position: " + out[-400:]); break
        ok = False
        per = {}
        for file, ln in errs: per.setdefault(file, set()).add(int(ln))
        for file, lns in per.items():
            ok |= patch(work / file, sorted(lns), log)
        if not ok:
            stuck.append(out[-1500:]); break
    names = [n for c in json.loads((root / "MANIFEST.json").read_text())["claims"] for n in c["theorems"]]
    tainted = None
    if not stuck:
        chk = work / "Check.lean"
        chk.write_text("".join(f"import {m}\n" for m in mods) + "open Lean Elab Command in\nrun_cmd do\n  for n in [" +
            ", ".join("`" + n for n in names) + "] do\n    let env ← getEnv\n    if env.contains n then\n"
            "      let ax ← liftCoreM (collectAxioms n)\n      if ax.contains ``sorryAx then logInfo m!\"TAINT {n}\"\n"
            "    else pure ()\n")
        rc, out = run(["lake", "env", "lean", "Check.lean"], work, 1200)
        tainted = [n.split(".")[-1] for n in re.findall(r"TAINT (\S+)", out)]
        if "error" in out: stuck.append(out[:800])
    res = dict(spec, broke=sorted(log), affected=tainted,
               unaffected=None if tainted is None else [n for n in mine if n not in tainted], stuck=stuck, seconds=round(time.time() - t0))
    pathlib.Path(f"/tmp/mut/{spec['id']}.json").write_text(json.dumps(res, indent=1, ensure_ascii=False))
    print(spec["id"], "broke", len(log), "affected", None if tainted is None else len(tainted), "stuck", len(stuck), "unaffected", res["unaffected"],
          res["seconds"], flush=True)

specs = json.loads(pathlib.Path(sys.argv[1]).read_text())
for sp in specs:
    if len(sys.argv) == 2 or sp["id"] in sys.argv[2:]:
        one(sp)
