#!/usr/bin/env python3
"""Write AXIOMS.txt: the axioms of every theorem named in MANIFEST.json (needs a finished `lake build`)."""
import json
import pathlib
import re
import subprocess

here = pathlib.Path("/verif")
names = [t for c in json.loads((here / "MANIFEST.json").read_text())["claims"] for t in c["theorems"]]
src = "import Verif\n" + "\n".join(f"#print axioms {n}" for n in names)
tmp = pathlib.Path("/tmp/axioms.lean")
tmp.write_text(src)
r = subprocess.run("lake env lean /tmp/axioms.lean", shell=True, cwd=here / "lean", capture_output=True, text=True)
text = re.sub(r"\n\s+", " ", r.stdout)
lines = [l for l in text.split("\n") if l.startswith("'")]
assert len(lines) == len(names), (len(lines), len(names), r.stdout[-500:])
(here / "AXIOMS.txt").write_text("\n".join(lines) + "\n")
allowed = {"propext", "Classical.choice", "Quot.sound"}
for l in lines:
    m = re.search(r"\[(.*)\]", l)
    used = set(x.strip() for x in m.group(1).split(",")) if m else set()
    assert used <= allowed, l
print(len(lines), "theorems, all within", sorted(allowed))
