#!/bin/sh
# Print the axioms of every theorem in MANIFEST.json into tools/axioms.txt (needs a finished lake build).
cd "$(dirname "$0")/../lean" || exit 1
python3 - > /tmp/axioms_query.lean <<'PY'
import json
print("import Verif")
for c in json.load(open("../MANIFEST.json"))["claims"]:
    for t in c["theorems"]:
        print("#print axioms", t)
PY
lake env lean /tmp/axioms_query.lean | python3 -c '
import re, sys
t = sys.stdin.read()
for m in re.finditer(r"\x27([\w.\x27]+)\x27 (depends on axioms: \[([^\]]*)\]|does not depend on any axioms)", t):
    print(m.group(1) + ": " + (" ".join(m.group(3).split()) if m.group(3) else "none"))
' > ../tools/axioms.txt
wc -l ../tools/axioms.txt
