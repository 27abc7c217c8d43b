#!/usr/bin/env python3
"""Regenerate lean/Verif.lean and MANIFEST.json from the Lean sources and tools/notes.json."""
import json, os, re, glob
root = os.path.dirname(os.path.dirname(os.path.abspath(__file__)))
lean = os.path.join(root, "lean")
mods = sorted(os.path.relpath(p, lean)[:-5].replace("/", ".")
              for p in glob.glob(os.path.join(lean, "Verif", "**", "*.lean"), recursive=True))
open(os.path.join(lean, "Verif.lean"), "w").write("".join(f"import {m}\n" for m in mods))
thms = {}
for p in sorted(glob.glob(os.path.join(lean, "Verif", "Props", "*.lean"))):
    for m in re.finditer(r"^theorem (C\d{2,3})(_\w+)", open(p).read(), re.M):
        thms.setdefault(m.group(1), []).append("Verif.Props." + m.group(1) + m.group(2))
notes = json.load(open(os.path.join(root, "tools", "notes.json")))
claims = []
for line in open(os.path.join(root, "properties.jsonl")):
    pid = json.loads(line)["id"]
    t = thms.get(pid, [])
    n = notes.get(pid, {})
    status = n.get("status") or ("proved" if t else "partial")
    if any(x.endswith("_partial") or x.endswith("_violated") for x in t):
        status = "partial"
    claims.append({"property": pid, "status": status, "theorems": t,
                   "note": n.get("note", "" if t else "not proved yet")})
json.dump({"claims": claims}, open(os.path.join(root, "MANIFEST.json"), "w"), indent=1)
print(sum(c["status"] == "proved" for c in claims), "proved;",
      sum(c["status"] == "partial" and bool(c["theorems"]) for c in claims), "partial;",
      [c["property"] for c in claims if not c["theorems"]])
