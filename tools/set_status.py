"""set_status.py C45 proved "note" [C46 partial "note" ...]: record statuses, then regenerate MANIFEST.json."""
import json
import pathlib
import runpy
import sys

here = pathlib.Path(__file__).resolve().parent
path = here / "status.json"
status = json.loads(path.read_text())
args = sys.argv[1:]
for i in range(0, len(args), 3):
    status[args[i]] = [args[i + 1], args[i + 2]]
path.write_text(json.dumps(dict(sorted(status.items())), indent=0) + "\n")
runpy.run_path(str(here / "gen_manifest.py"))
