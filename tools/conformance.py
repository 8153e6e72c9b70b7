#!/usr/bin/env python3
"""Write CONFORMANCE.md from tools/conformance.tsv; check that the verdicts agree with MANIFEST.json."""
import json, sys
M = {c["property"]: c for c in json.load(open("MANIFEST.json"))["claims"]}
rows, bad = [], []
for line in open("tools/conformance.tsv"):
    if not line.strip():
        continue
    sid, what, verdict, props, remark = line.rstrip("\n").split("\t")
    names = []
    for p in props.split():
        if p not in M:
            bad.append(f"{sid}: no property {p}")
            continue
        ts = [t.replace("Ratel.", "") for t in M[p]["theorems"]]
        if verdict == "violated":
            ts = [t for t in ts if t.endswith("_fails")] or ts
        else:
            ts = [t for t in ts if not t.endswith("_fails")]
        names += ts[:3]
    if verdict == "violated" and not any(n.endswith("_fails") for n in names):
        bad.append(f"{sid}: violated, but no theorem says so")
    if verdict == "holds" and all(M[p]["status"] == "partial" for p in props.split() if p in M) and not remark:
        bad.append(f"{sid}: said to hold by partial properties only")
    rows.append((sid, what, verdict, props, names, remark))
if bad:
    sys.exit("\n".join(bad))
n = sum(r[2] == "holds" for r in rows)
out = [f"""# MQTT 3.1.1, statement by statement

The normative statements of MQTT 3.1.1 that bind a server, as far as the model speaks about them; what is proved about each. {n} of {len(rows)} hold,
{len(rows) - n} are violated by the code. Generated by `tools/conformance.py`, which checks that the properties and theorems named exist in
MANIFEST.json and that each violation is the subject of a `_fails` theorem. Statements about clients only, about TCP and about WebSockets are left
out. The short wordings are ours.

| Statement | Demands | Verdict | Properties | Theorems | Remark |
|---|---|---|---|---|---|"""]
for sid, what, verdict, props, names, remark in rows:
    out.append(f"| [MQTT-{sid}] | {what} | {'**violated**' if verdict == 'violated' else 'holds'} | {props} | {', '.join('`'+x+'`' for x in names)} | {remark} |")
open("CONFORMANCE.md", "w").write("\n".join(out) + "\n")
print(len(rows), "statements,", n, "hold")
