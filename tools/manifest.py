#!/usr/bin/env python3
"""Regenerates MANIFEST.json from the theorems in lean/Verif/Props and the notes in tools/notes.json."""
import glob, json, os, re

root = os.path.join(os.path.dirname(os.path.abspath(__file__)), "..")
theorems = {}
for path in sorted(glob.glob(os.path.join(root, "lean/Verif/Props/*.lean"))):
    for name in re.findall(r"^theorem (C\d\d+_\w+)", open(path).read(), re.M):
        theorems.setdefault(name.split("_")[0], []).append("Ratel." + name)
notes = json.load(open(os.path.join(root, "tools/notes.json")))
claims = []
for line in open(os.path.join(root, "properties.jsonl")):
    pid = json.loads(line)["id"]
    names = theorems.get(pid, [])
    if not names:
        print("no theorem for", pid)
        continue
    partial = any(n.endswith("_partial") or n.endswith("_fails") for n in names)
    if pid not in notes:
        print("no note for", pid)
    claims.append({"property": pid, "status": "partial" if partial else "proved", "theorems": names, "note": notes.get(pid, "")})
json.dump({"claims": claims}, open(os.path.join(root, "MANIFEST.json"), "w"), indent=1, ensure_ascii=False)
