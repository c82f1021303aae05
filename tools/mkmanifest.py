#!/usr/bin/env python3
"""Write MANIFEST.json from the theorem names found in lean/Verif/Props.

Every theorem named Cnn_... belongs to property Cnn. The status and note of a property are taken from
STATUS below; a property without theorems is reported as partial."""
import json, re, pathlib
root = pathlib.Path(__file__).resolve().parent.parent
names = {}
for f in sorted((root / "lean/Verif/Props").glob("*.lean")):
    text = f.read_text()
    ns = ".".join(re.findall(r"^namespace (\S+)", text, re.M))
    for m in re.finditer(r"^theorem ((C\d\d\d?)_\S+)", text, re.M):
        names.setdefault(m.group(2), []).append(f"{ns}.{m.group(1)}")
STATUS = json.loads((root / "tools/status.json").read_text())
claims = []
for line in (root / "properties.jsonl").read_text().splitlines():
    pid = json.loads(line)["id"]
    st = STATUS.get(pid, {})
    ths = names.get(pid, [])
    status = st.get("status", "partial")
    note = st.get("note", "")
    if not ths and status != "not_applicable":
        status, note = "partial", "not proved yet"
    claims.append({"property": pid, "status": status, "theorems": ths, "note": note})
(root / "MANIFEST.json").write_text(json.dumps({"claims": claims}, indent=1) + "\n")
print({s: sum(c["status"] == s for c in claims) for s in ("proved", "partial", "not_applicable")},
      "without theorems:", [c["property"] for c in claims if not c["theorems"]])
