"""Print every citation of /repo found in the model next to the text of the cited lines."""
import pathlib, re, sys
root = pathlib.Path(__file__).resolve().parent.parent
src = {}
for f in sorted((root / "lean" / "Verif").rglob("*.lean")):
    for i, line in enumerate(f.read_text().splitlines(), 1):
        for m in re.finditer(r"(\w+)\.py:([\d, \-]*\d)", line):
            name = m.group(1)
            if len(sys.argv) > 1 and name not in sys.argv[1:]:
                continue
            if name not in src:
                src[name] = (pathlib.Path("/repo/squigglepy") / (name + ".py")).read_text().splitlines()
            print(f"{f.name}:{i}: {line.strip()[:110]}")
            for r in m.group(2).split(","):
                a, _, b = r.strip().partition("-")
                for k in ([int(a), int(b)] if b else [int(a)]):
                    text = src[name][k - 1].strip() if k <= len(src[name]) else "OUT OF RANGE"
                    print(f"      {name}:{k}: {text[:90]}")
