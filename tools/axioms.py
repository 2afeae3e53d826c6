#!/usr/bin/env python3
"""Write the axioms of every theorem of MANIFEST.json into DESIGN.md, between the two markers.
Needs a built project: run `lake build` in lean/ first."""
import json, os, re, subprocess, tempfile

root = os.path.dirname(os.path.dirname(os.path.abspath(__file__)))
claims = json.load(open(f"{root}/MANIFEST.json"))["claims"]
names = [t.removeprefix("Verif.") for c in claims for t in c["theorems"]]
with tempfile.NamedTemporaryFile("w", suffix=".lean", delete=False) as f:
    f.write("import Verif\n" + "".join(f"#print axioms Verif.{n}\n" for n in names))
out = subprocess.run(["lake", "env", "lean", f.name], cwd=f"{root}/lean", capture_output=True, text=True).stdout
os.unlink(f.name)
groups = {}
for name, axioms in re.findall(r"'Verif\.(\S+)' (?:depends on axioms: \[([^\]]*)\]|does not depend on any axioms)", out):
    key = ", ".join(sorted(a.strip() for a in axioms.split(","))) if axioms else "none"
    groups.setdefault(key, []).append(name)
assert sum(map(len, groups.values())) == len(names), (len(names), out[:500])
text = ""
for key in sorted(groups, key=len):
    text += f"* **{key}** ({len(groups[key])}): " + ", ".join(f"`{n}`" for n in groups[key]) + "\n"
p = f"{root}/DESIGN.md"
s = open(p).read()
a, b = "<!-- axioms -->\n", "<!-- /axioms -->\n"
s = s[:s.index(a) + len(a)] + text + s[s.index(b):]
open(p, "w").write(s)
print({k: len(v) for k, v in groups.items()})
