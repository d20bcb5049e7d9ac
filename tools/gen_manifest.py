"""Collect property theorems (names starting with a property id) from lean/Verif and write MANIFEST.json.

The status and note of every property are kept in tools/status.json:
{"C01": ["proved", "note"], ...}.  Properties without an entry and without theorems are skipped.
"""
import json
import pathlib
import re

root = pathlib.Path(__file__).resolve().parent.parent
status = json.loads((root / "tools" / "status.json").read_text())
found = {}
for path in sorted((root / "lean" / "Verif").rglob("*.lean")):
    ns = []
    for line in path.read_text().splitlines():
        m = re.match(r"namespace\s+(\S+)", line)
        if m:
            ns.append(m.group(1))
        m = re.match(r"end\s+(\S+)", line)
        if m and ns and ns[-1] == m.group(1):
            ns.pop()
        m = re.match(r"theorem\s+((C\d\d\d?)_\S+)", line)
        if m:
            found.setdefault(m.group(2), []).append(".".join(ns + [m.group(1)]))
claims = []
for line in (root / "properties.jsonl").read_text().splitlines():
    pid = json.loads(line)["id"]
    thms = found.get(pid, [])
    if pid in status:
        st, note = status[pid]
    elif thms:
        st, note = "partial", "status not recorded"
        print("no status for", pid)
    else:
        continue
    if st == "proved" and not thms:
        print("proved without theorems:", pid)
        st = "partial"
    claims.append({"property": pid, "status": st, "theorems": thms, "note": note})
(root / "MANIFEST.json").write_text(json.dumps({"claims": claims}, indent=1) + "\n")
print(len(claims), "claims,", sum(len(c["theorems"]) for c in claims), "theorems")
