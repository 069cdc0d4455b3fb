#!/bin/sh
# writes /verif/AXIOMS.txt: the axioms of each theorem named in MANIFEST.json
cd "$(dirname "$0")/../lean" || exit 1
python3 - > /tmp/Ax.lean <<'P'
import json
print("import Verif")
seen=set()
for c in json.load(open('../MANIFEST.json'))['claims']:
    for t in c['theorems']:
        if t not in seen: print("#print axioms "+t)
        seen.add(t)
P
lake env lean /tmp/Ax.lean | tr '\n' ' ' | sed "s/\] '/]\n'/g; s/axioms '/axioms\n'/g" | sed 's/  */ /g; s/ depends on axioms//; s/ does not depend on any axioms/: []/' > ../AXIOMS.txt
echo >> ../AXIOMS.txt
