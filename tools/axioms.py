#!/usr/bin/env python3
"""Writes AXIOMS.md: the axioms each property theorem depends on. Needs a finished build."""
import glob, os, re, subprocess, tempfile

root = os.path.join(os.path.dirname(os.path.abspath(__file__)), "..")
names = []
for path in sorted(glob.glob(os.path.join(root, "lean/Verif/Props/*.lean"))):
    names += re.findall(r"^theorem (C\d\d+_\w+)", open(path).read(), re.M)
names.sort()
with tempfile.NamedTemporaryFile("w", suffix=".lean", delete=False) as f:
    f.write("import Verif\n" + "".join(f"#print axioms Ratel.{n}\n" for n in names))
out = subprocess.run(["lake", "env", "lean", f.name], cwd=os.path.join(root, "lean"), capture_output=True, text=True).stdout
out = re.sub(r"\s+", " ", out)
with open(os.path.join(root, "AXIOMS.md"), "w") as g:
    g.write("# Axioms of the property theorems\n\nGenerated by `tools/axioms.py`.\n\n| Theorem | Axioms |\n|---|---|\n")
    for n in names:
        m = re.search(r"'Ratel\.%s' (?:depends on axioms: \[([^\]]*)\]|(does not depend))" % n, out)
        g.write(f"| {n} | {(m.group(1) or 'none') if m else '?'} |\n")
