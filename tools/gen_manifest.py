#!/usr/bin/env python3
"""Rebuild MANIFEST.json from the theorem names in lean/Verif/*/Props*.lean and the notes below."""
import json, re, pathlib, sys
root = pathlib.Path(__file__).resolve().parent.parent
props = [json.loads(l)["id"] for l in open(root / "properties.jsonl")]
notes = json.load(open(root / "tools" / "notes.json"))
thms = {}
for f in sorted((root / "lean" / "Verif").rglob("*.lean")):
    ns = []
    for line in f.read_text().splitlines():
        m = re.match(r"namespace (\S+)", line)
        if m: ns.append(m.group(1))
        m = re.match(r"end (\S+)", line)
        if m and ns and ns[-1] == m.group(1): ns.pop()
        m = re.match(r"(?:private )?theorem (C\d\d+_\w+)", line)
        if m:
            thms.setdefault(m.group(1).split("_")[0], []).append(".".join(ns + [m.group(1)]))
claims = []
for p in props:
    if p in thms:
        n = notes.get(p, {})
        status = n.get("status") or ("partial" if any(t.endswith("_partial") for t in thms[p]) else "proved")
        claims.append({"property": p, "status": status, "theorems": thms[p], "note": n.get("note", "")})
    elif p in notes and notes[p].get("status") == "not_applicable":
        claims.append({"property": p, "status": "not_applicable", "theorems": [], "note": notes[p]["note"]})
json.dump({"claims": claims}, open(root / "MANIFEST.json", "w"), indent=1)
print(len(claims), "claims;", sum(len(c["theorems"]) for c in claims), "theorems; missing:", [p for p in props if p not in thms])
