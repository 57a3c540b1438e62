#!/usr/bin/env python3
"""Ask Lean which axioms each theorem named in MANIFEST.json depends on; writes AXIOMS.md. Needs a finished build."""
import json, os, subprocess, tempfile
root = os.path.join(os.path.dirname(os.path.abspath(__file__)), "..")
claims = json.load(open(os.path.join(root, "MANIFEST.json")))["claims"]
names = [t for c in claims for t in c["theorems"]]
src = "import Verif\n" + "".join("#print axioms %s\n" % n for n in names)
with tempfile.NamedTemporaryFile("w", suffix=".lean", delete=False) as f: f.write(src)
out = subprocess.run(["lake", "env", "lean", f.name], cwd=os.path.join(root, "lean"), capture_output=True, text=True).stdout
os.unlink(f.name)
import re
dep = {}
for m in re.finditer(r"'(\S+?)' (?:depends on axioms: \[([^\]]*)\]|does not depend on any axioms)", out):
    dep[m.group(1)] = sorted(x.strip() for x in (m.group(2) or "").split(",") if x.strip())
missing = [n for n in names if n not in dep]
with open(os.path.join(root, "AXIOMS.md"), "w") as f:
    f.write("# Axioms each theorem depends on (output of `#print axioms`)\n\n")
    groups = {}
    for n in names: groups.setdefault(tuple(dep.get(n, ["?"])), []).append(n)
    for g, ns in sorted(groups.items()):
        f.write("## %s\n\n%s\n\n" % (", ".join(g) or "none", "\n".join("* " + n.split(".")[-1] for n in ns)))
print(len(names), "theorems;", "missing:", missing[:5], "axioms:", sorted({a for d in dep.values() for a in d}))
