#!/usr/bin/env python3
"""Regenerate MANIFEST.json from the theorem names in lean/Verif/Props and notes.json."""
import glob, json, re, os
root = os.path.dirname(os.path.dirname(os.path.abspath(__file__)))
notes = json.load(open(os.path.join(root, "tools", "notes.json")))
thms = {}
for f in sorted(glob.glob(os.path.join(root, "lean/Verif/Props/**/*.lean"), recursive=True)):
    for m in re.finditer(r"^theorem ((C\d+)_\w+)", open(f).read(), re.M):
        thms.setdefault(m.group(2), []).append("Chanoma." + m.group(1))
claims = []
for line in open(os.path.join(root, "properties.jsonl")):
    pid = json.loads(line)["id"]
    if pid not in thms:
        continue
    n = notes.get(pid, {})
    status = n.get("status") or ("partial" if any(t.endswith("_partial") for t in thms[pid]) else "proved")
    claims.append({"property": pid, "status": status, "theorems": thms[pid], "note": n.get("note", "")})
json.dump({"claims": claims}, open(os.path.join(root, "MANIFEST.json"), "w"), indent=1, ensure_ascii=False)
print(len(claims), "claims", sum(len(c["theorems"]) for c in claims), "theorems")
