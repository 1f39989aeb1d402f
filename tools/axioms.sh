#!/bin/sh
# Prints the axioms each manifest theorem depends on (run after `lake build`), and a summary.
cd /verif/lean
python3 - <<'P' > /tmp/axioms_all.lean
import json,re,glob
print("import Verif")
names=set()
for c in json.load(open('/verif/MANIFEST.json'))['claims']:
    names.update(c['theorems'])
for n in sorted(names): print("#print axioms",n)
P
lake env lean /tmp/axioms_all.lean
