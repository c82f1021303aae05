#!/usr/bin/env python3
"""Write seeded/LOG.jsonl from the results of tools/mutate.py (/tmp/mut/ID.json): one line per wrong program with the
definition edited, the edit, the claim it breaks, the theorems which failed and the theorems tightened because of it.
Lines of programs without a result in /tmp/mut are kept."""
import json, pathlib
root = pathlib.Path(__file__).resolve().parent.parent
log = root / "seeded/LOG.jsonl"
# programs which passed when first tried, and the theorems added or strengthened afterwards
tightened = {
    "H03": ["C73_basis_function"],
    "H05": ["C73_basis_function", "C20_harmonics", "C20_reconstruct", "C20_fit"],
    "V18": ["C83_snr"],
    "Z25": ["C102_values"],
    "Z26": ["C102_values"],
    "Z28": ["C105_partial"],
    "W21": ["C120_weights", "C120_solve"],
    "W23": ["C120_weights", "C120_solve"],
    "FA08": ["C140_built", "C140_precedence"],
    "FA09": ["C66_attribute_is_item", "C66_shadowed_names"],
    "FA28": ["C144_current", "C144_determined"],
    "FA33": ["C73_basis_function"],
    "FA41": ["C89_convert_partial"],
    "FA49": ["C14_none", "C74_infer_none"],
    "FA66": ["C36_thresholds"],
    "FA76": ["C68_two_spacings"],
    "FA78": ["C68_two_spacings"],
    "FA79": ["C68_tolerance"],
}
# programs which still satisfy every claim: the edit has no observable effect
harmless = {
    "FA67": "no observable effect: nothing in the model uses the edited definition",
    "W55": "no observable effect: solve always passes Rayleigh_min on as rmin, which overrides the default edited here",
    "FA45": "ties only: no claim speaks about which neighbour a number half way between two is rounded to",
    "FA50": "no observable effect: the edited field only records what happens to the caller's object, which processOpts drops",
    "FA53": "no observable effect: only the number of axes of the array is used",
}
names = [n.split(".")[-1] for c in json.loads((root / "MANIFEST.json").read_text())["claims"] for n in c["theorems"]]
rows = {}
if log.exists():
    for l in log.read_text().splitlines():
        if l.strip(): rows[json.loads(l)["id"]] = json.loads(l)
for f in sorted(pathlib.Path("/tmp/mut").glob("[A-Z]*[0-9].json")):
    d = json.loads(f.read_text())
    broke = [b for b in d["broke"]]
    failed = d["affected"] if d["affected"] else []
    if not failed:
        # theorems of the properties among the proofs which broke
        failed = sorted({b.split(": ")[-1] for b in broke if b.split(": ")[-1].split(" ")[-1] in names})
    row = {"id": d["id"], "definition": f"{d['file']}: {d['definition']}", "edit": [f"{o}  ->  {n}" for o, n in d["edits"]],
           "claim": d["claim"], "properties": d["claims"], "failed": failed, "proofs_broken": broke,
           "tightened": tightened.get(d["id"], [])}
    if d["stuck"]:
        row["note"] = "the files after the first failure do not build any more, so theorems later in them are not listed"
    if d["id"] in harmless:
        row["note"] = harmless[d["id"]]
    rows[d["id"]] = row
log.write_text("".join(json.dumps(rows[k], ensure_ascii=False) + "\n" for k in sorted(rows)))
print(len(rows), "lines;", [k for k, r in rows.items() if not r["failed"]], "without a failed theorem")
