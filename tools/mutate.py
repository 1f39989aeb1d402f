#!/usr/bin/env python3
"""Seeded-bug runner.  usage: mutate.py mutations.json
Each entry: {"file": "Rng/Model.lean", "definition": "...", "old": "...", "new": "...", "claim": "..."}.
Works in a scratch copy (/tmp/mut/lean); appends one JSON line per attempt to /verif/seeded/LOG.jsonl."""
import json, re, subprocess, sys, pathlib, os
root = pathlib.Path("/verif")
scratch = pathlib.Path("/tmp/mut/lean")
scratch.parent.mkdir(parents=True, exist_ok=True)
subprocess.run(f"rm -rf {scratch} && cp -a {root}/lean {scratch}", shell=True, check=True)
muts = json.load(open(sys.argv[1]))
def enclosing(file, line):
    ls = (scratch / file).read_text().splitlines()[:line]
    for l in reversed(ls):
        m = re.match(r"\s*(?:@\[[^\]]*\] )?(?:private |noncomputable )?(theorem|lemma|def|example|instance|inductive|structure)\s*(\S*)", l)
        if m: return m.group(2).rstrip(":") if m.group(1) not in ("example",) else "example"
    return "?"
for m in muts:
    f = scratch / "Verif" / m["file"]
    orig = f.read_text()
    assert orig.count(m["old"]) >= 1, ("not found", m["old"])
    f.write_text(orig.replace(m["old"], m["new"], 1))
    area = m.get("target") or ("Verif." + m["file"].split("/")[0] + ".Props")
    failed, blocked = [], []
    try:
        p = subprocess.run(["lake", "build", area] if area != "all" else ["lake", "build"], cwd=scratch, capture_output=True, text=True, timeout=1500)
        out = p.stdout + p.stderr
        for x in re.finditer(r"error: (Verif/[\w/]+\.lean):(\d+):", out):
            n = enclosing(x.group(1), int(x.group(2)))
            tag = n if n != "example" else "example in " + x.group(1)
            if tag not in failed: failed.append(tag)
        ok = p.returncode == 0
        assert ok or failed, out[-2000:]
    except subprocess.TimeoutExpired:
        ok, failed = False, ["timeout"]
    f.write_text(orig)
    entry = {"definition": m["definition"], "edit": m.get("edit") or f"{m['old']!r} -> {m['new']!r}", "claim": m["claim"],
             "theorems_failed": failed, "survived": ok, "theorems_tightened": m.get("tightened", [])}
    if ok: entry["note"] = m.get("note", "")
    print("SURVIVED" if ok else "killed", m["definition"], failed[:4])
    if not (ok and m.get("dry")):
        with open(root / "seeded" / "LOG.jsonl", "a") as g: g.write(json.dumps(entry) + "\n")
