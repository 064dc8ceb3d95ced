"""Rewrite the table of axioms at the end of DESIGN.md from `#print axioms`.

Run in /verif/lean after `lake build`: python3 ../scripts/axioms.py
"""
import json
import re
import subprocess

claims = json.load(open("/verif/MANIFEST.json"))["claims"]
names = sorted({t for c in claims for t in c["theorems"]})
open("/tmp/Ax.lean", "w").write("import Verif\n" + "".join(f"#print axioms {n}\n" for n in names))
out = subprocess.run(["lake", "env", "lean", "/tmp/Ax.lean"], capture_output=True, text=True, cwd="/verif/lean").stdout
groups = {}
for m in re.finditer(r"'([^']*)' (does not depend on any axioms|depends on axioms: \[([^\]]*)\])", out):
    groups.setdefault(" ".join((m.group(3) or "none").split()), []).append(m.group(1).replace("Pulumi.", ""))
assert sum(map(len, groups.values())) == len(names), "theorem without answer"
text = "\n| Axioms | Theorems (without the prefix `Pulumi.`) |\n|---|---|\n"
for a, ts in sorted(groups.items(), key=lambda g: len(g[0])):
    text += f"| {a} | {', '.join(f'`{t}`' for t in ts)} |\n"
mark = "<!-- axioms -->"
d = open("/verif/DESIGN.md").read()
open("/verif/DESIGN.md", "w").write(d[: d.index(mark)] + mark + "\n" + text)
