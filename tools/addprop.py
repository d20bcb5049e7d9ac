"""addprop.py FILE: FILE is Python defining PROPS = [(id, title, statement, quantifier, why, anchors_source, design_row)].
Appends to gen_properties.py and design_rows.txt."""
import pathlib, runpy, sys
here = pathlib.Path(__file__).resolve().parent
ns = runpy.run_path(sys.argv[1])
gp = here / "gen_properties.py"
s = gp.read_text()
rows = (here / "design_rows.txt").read_text()
for pid, title, stmt, quant, why, anchors, row in ns["PROPS"]:
    if 'p("%s"' % pid in s:
        continue
    new = 'p(%r, %r,\n  %r,\n  %r, %r, %s)\n' % (pid, title, stmt, quant, why, anchors)
    new = new.replace("p('%s'" % pid, 'p("%s"' % pid, 1)
    s = s.replace('\nwith open("/verif/properties.jsonl"', new + '\nwith open("/verif/properties.jsonl"', 1)
    rows += "%s | %s\n" % (pid, row)
gp.write_text(s)
(here / "design_rows.txt").write_text(rows)
runpy.run_path(str(gp))
