#!/usr/bin/env python3
"""Generate DESIGN.md: hand-written text, and one row per property (model, method, verdict, theorems)."""
import json
import pathlib

here = pathlib.Path("/verif")
man = {c["property"]: c for c in json.loads((here / "MANIFEST.json").read_text())["claims"]}
props = [json.loads(l) for l in (here / "properties.jsonl").read_text().splitlines() if l.strip()]
rows = {}
for line in (here / "tools" / "design_rows.txt").read_text().splitlines():
    if not line.strip() or line.startswith("#"):
        continue
    pid, model, method = [x.strip() for x in line.split("|")]
    rows[pid] = (model, method)

out = [(here / "tools" / "design_head.md").read_text().rstrip(), ""]
out += ["## Per property: what is modelled and how it is proved", ""]
for p in props:
    c = man[p["id"]]
    model, method = rows[p["id"]]
    out.append(f"**{p['id']} — {p['title']}** ({c['status']}). *Model:* {model}. *Proof:* {method}."
               + (f" *Verdict:* {c['note'].rstrip('.')}." if c["note"] else ""))
    out.append("")
out.append((here / "tools" / "design_tail.md").read_text().rstrip())
out.append("")
(here / "DESIGN.md").write_text("\n".join(out))
