#!/usr/bin/env python3
"""setstatus.py Cnn status [note]: record the status of a property in status.json."""
import json, pathlib, sys
f = pathlib.Path(__file__).resolve().parent / "status.json"
d = json.loads(f.read_text())
d[sys.argv[1]] = {"status": sys.argv[2], "note": sys.argv[3] if len(sys.argv) > 3 else ""}
f.write_text(json.dumps(d, indent=1) + "\n")
