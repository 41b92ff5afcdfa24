#!/usr/bin/env python3
"""Print, for every theorem in MANIFEST.json, the axioms it depends on, grouped by the set of axioms (Markdown).
Run in a checkout after `lake build` in lean/."""
import json, os, re, subprocess, tempfile
root = os.path.dirname(os.path.dirname(os.path.abspath(__file__)))
names = [t for c in json.load(open(f"{root}/MANIFEST.json"))["claims"] for t in c["theorems"]]
with tempfile.NamedTemporaryFile("w", suffix=".lean", delete=False) as f:
    f.write("import Verif\n" + "".join(f"#print axioms {n}\n" for n in names))
out = subprocess.run(["lake", "env", "lean", f.name], cwd=f"{root}/lean", capture_output=True, text=True).stdout
groups = {}
for m in re.finditer(r"'([^']+)' (?:depends on axioms: \[([^\]]*)\]|does not depend on any axioms)", out):
    key = ", ".join(sorted(re.split(r",\s*", m.group(2)))) if m.group(2) else "none"
    groups.setdefault(key, []).append(m.group(1))
assert sum(map(len, groups.values())) == len(names), "some theorem was not found"
for key in sorted(groups):
    print(f"* **{key}** ({len(groups[key])} theorems): " + ", ".join(f"`{n}`" for n in groups[key]))
