#!/usr/bin/env python3
"""mutate.py LIST.py [ids...]: test the theorems against wrong programs.

LIST.py defines MUTANTS = [dict(id, file, old, new, definition, edit, claim, [count])].  For each mutant the
edit is applied in a scratch copy of /verif/lean outside /verif and everything is rebuilt.  A declaration
whose proof no longer goes through is replaced by `sorry` in the scratch copy, until the copy builds; then
every claim theorem (C<number>_...) that depends on `sorryAx` counts as failed.  The build stops early when
a theorem of the broken claim itself fails.  The result is appended to
/verif/seeded/LOG.jsonl.  A mutant SURVIVES if no theorem of the claim it breaks has failed.
"""
import json
import os
import pathlib
import re
import runpy
import subprocess
import sys
import time

SRC = pathlib.Path(os.environ.get("MUT_SRC", "/verif/lean"))
SCR = pathlib.Path("/tmp/scratch/lean")
LOG = pathlib.Path("/verif/seeded/LOG.jsonl")
OUT = pathlib.Path("/tmp/scratch/report.txt")
DECL = re.compile(r"^(?:@\[[^\]]*\]\s*)?(?:private |protected |noncomputable )*(theorem|lemma|example|def|instance|inductive|structure|abbrev)\b\s*(\S*)")

CHECK = r'''
import Verif
open Lean Elab Command
partial def bad (env : Environment) (n : Name) : StateM (Std.HashMap Name Bool) Bool := do
  if n == ``sorryAx then return true
  if !(`Verif).isPrefixOf n then return false
  if let some b := (← get).get? n then return b
  modify (·.insert n false)
  let some ci := env.find? n | return false
  let used := ci.type.getUsedConstants ++ (match ci.value? (allowOpaque := true) with | some v => v.getUsedConstants | none => #[])
  let mut r := false
  for u in used do
    if ← bad env u then r := true
  modify (·.insert n r)
  return r
run_cmd do
  let env ← getEnv
  let mut s : Std.HashMap Name Bool := {}
  for (n, _) in env.constants.map₁.toList do
    if (`Verif).isPrefixOf n then
      let (b, s') := (bad env n).run s
      s := s'
      if b then logInfo m!"BAD {n}"
'''


def sh(cmd, **kw):
    return subprocess.run(cmd, shell=True, capture_output=True, text=True, **kw)


def prepare():
    """Keep a copy of the committed sources and of the compiled files, taken from a finished build."""
    sh("rm -rf /tmp/scratch/base /tmp/scratch/lean; mkdir -p /tmp/scratch")
    sh(f"cp -a {SRC} /tmp/scratch/base")


def reset():
    sh(f"rm -rf {SCR}; cp -a /tmp/scratch/base {SCR}")


def split_decl(lines, i):
    """Find the declaration containing line index i: (start, end) and its header."""
    s = i
    while s >= 0 and not DECL.match(lines[s]):
        s -= 1
    if s < 0:
        return None
    e = s + 1
    while e < len(lines) and not re.match(r"^(/-|theorem|lemma|example|def|instance|noncomputable|private|"
                                          r"protected|inductive|structure|abbrev|@\[|end\b|section\b|"
                                          r"namespace\b|open\b|variable\b|set_option\b|omit\b|include\b|attribute\b|"
                                          r"#|--|local\b|scoped\b|mutual\b|universe\b)", lines[e]):
        e += 1
    return s, e


def sorry_decl(path, line):
    text = path.read_text()
    lines = text.split("\n")
    r = split_decl(lines, line - 1)
    if r is None:
        return None
    s, e = r
    m = DECL.match(lines[s])
    kind, name = m.group(1), m.group(2)
    if kind not in ("theorem", "lemma", "example"):
        return ("def", name)
    if kind == "example":
        lines[s:e] = [""] * (e - s)
        while s > 0 and not lines[s - 1].rstrip().endswith("-/") and lines[s - 1].strip() == "":
            s -= 1
        if s > 0 and lines[s - 1].rstrip().endswith("-/"):
            k = s - 1
            while not lines[k].lstrip().startswith("/-"):
                k -= 1
            if lines[k].lstrip().startswith("/--"):
                lines[k:s] = [""] * (s - k)
        path.write_text("\n".join(lines))
        return ("ok", f"example@{path.stem}:{line}")
    body = "\n".join(lines[s:e])
    if body.rstrip().endswith("sorry"):
        return ("again", name)
    depth = 0
    cut = None
    j = 0
    while j < len(body):
        c = body[j]
        if c in "([{⟨":
            depth += 1
        elif c in ")]}⟩":
            depth -= 1
        elif depth == 0 and body.startswith(":=", j):
            if not re.match(r"\s*(let|have)\b", body[body.rfind("\n", 0, j) + 1:j]):
                cut = j
                break
        elif depth == 0 and body.startswith("\n  | ", j):
            cut = j
            break
        j += 1
    if cut is None:
        return ("cannot", name)
    new = body[:cut].rstrip() + " := sorry"
    lines[s:e] = new.split("\n") + [""]
    path.write_text("\n".join(lines))
    return ("ok", name if kind != "example" else f"example@{path.stem}:{line}")


def build(mu):
    """Build; stop at the first theorem of the broken claim that fails, and return its name."""
    want = mu["claim"].split()[0].rstrip(":") + "_"
    p = subprocess.Popen(f"cd {SCR} && exec timeout 3600 lake build 2>&1", shell=True, text=True,
                         stdout=subprocess.PIPE, start_new_session=True)
    out = []
    for line in p.stdout:
        out.append(line)
        m = re.match(r"^error: (\S+\.lean):(\d+):(\d+): ", line)
        if m:
            lines = (SCR / m.group(1)).read_text().split("\n")
            r = split_decl(lines, int(m.group(2)) - 1)
            name = DECL.match(lines[r[0]]).group(2) if r else ""
            if name.startswith(want):
                os.killpg(p.pid, 9)
                p.wait()
                return name
    p.wait()
    return subprocess.CompletedProcess("lake build", p.returncode, "".join(out), "")


def run(mu):
    reset()
    f = SCR / mu["file"]
    t = f.read_text()
    n = mu.get("count", 1)
    if t.count(mu["old"]) != n:
        return dict(status="INVALID", why=f"old text occurs {t.count(mu['old'])} times")
    f.write_text(t.replace(mu["old"], mu["new"]))
    failed = []
    for it in range(14):
        r = build(mu)
        if isinstance(r, str):
            return dict(status="KILLED", failed=sorted({x for x in failed if re.match(r"C\d\d", x)} | {r}), direct=failed)
        errs = []
        for m in re.finditer(r"^error: (\S+\.lean):(\d+):(\d+): (.*)$", r.stdout, re.M):
            errs.append((m.group(1), int(m.group(2)), m.group(4)))
        if r.returncode == 0:
            break
        if not errs:
            return dict(status="BROKEN", why=r.stdout[-1500:])
        done = 0
        by = {}
        for p, ln, msg in errs:
            by.setdefault(p, {})[ln] = msg
        for p, d in by.items():
            lines = (SCR / p).read_text().split("\n")
            starts = {}
            for ln in sorted(d):
                r0 = split_decl(lines, ln - 1)
                starts.setdefault(r0[0] + 1 if r0 else ln, ln)
            for st in sorted(starts, reverse=True):
                ln = starts[st]
                res = sorry_decl(SCR / p, ln)
                if res is None or res[0] in ("def", "cannot"):
                    return dict(status="BROKEN", why=f"{p}:{ln} {res} {d[ln]}")
                if res[0] == "ok":
                    failed.append(res[1])
                    done += 1
        if done == 0:
            return dict(status="BROKEN", why=str(errs[:3]))
    else:
        return dict(status="BROKEN", why="too many rounds")
    c = SCR / "check.lean"
    c.write_text(CHECK)
    r = sh(f"cd {SCR} && lake env lean check.lean")
    c.unlink()
    bad = re.findall(r"BAD (\S+)", r.stdout)
    claims = sorted({b.split(".")[-1] for b in bad if re.match(r"C\d\d", b.split(".")[-1])
                     and "_proof_" not in b and "._" not in b})
    if r.returncode != 0:
        return dict(status="BROKEN", why=r.stdout[-800:] + r.stderr[-500:])
    want = mu["claim"].split()[0].rstrip(":")
    hit = [x for x in claims if x.startswith(want + "_")]
    return dict(status="KILLED" if hit else "SURVIVED", failed=claims, direct=failed)


def main():
    muts = runpy.run_path(sys.argv[1])["MUTANTS"]
    ids = set(sys.argv[2:])
    prepare()
    for mu in muts:
        if ids and mu["id"] not in ids:
            continue
        t0 = time.time()
        r = run(mu)
        with OUT.open("a") as o:
            o.write(f"{mu['id']} {r['status']} {time.time()-t0:.0f}s claim={mu['claim'][:60]} "
                    f"failed={r.get('failed')} direct={r.get('direct')} {r.get('why', '')}\n")
        if r["status"] in ("KILLED", "SURVIVED"):
            with LOG.open("a") as o:
                o.write(json.dumps(dict(id=mu["id"], definition=mu["definition"], edit=mu["edit"],
                                        claim_broken=mu["claim"], theorems_failed=r["failed"],
                                        outcome=r["status"].lower(), theorems_tightened=[])) + "\n")


main()
