#!/usr/bin/env python3
"""Write DESIGN.md from the text below, MANIFEST.json, properties.jsonl and axioms.txt."""
import json, os
ROOT = os.path.join(os.path.dirname(os.path.abspath(__file__)), "..")
man = json.load(open(f"{ROOT}/MANIFEST.json"))["claims"]
props = {q["id"]: q for q in map(json.loads, open(f"{ROOT}/properties.jsonl"))}

HEAD = open(f"{ROOT}/tools/design_head.md").read()
TAIL = open(f"{ROOT}/tools/design_tail.md").read()
HOW = {}
for line in open(f"{ROOT}/tools/design_how.txt"):
    line = line.rstrip("\n")
    if line.strip():
        k, m, h = line.split("|")
        HOW[k.strip()] = (m.strip(), h.strip())

out = [HEAD.rstrip(), "", "## 3. Plan and result per property", "",
       "Shapes: (A) algebraic law or real analysis over R/C, (I) invariant by induction over operation lists or",
       "iterations, (R) refinement of a small specification, (D) decision logic.", "",
       "| property | what is modelled | how it is proved | status | theorems |", "|---|---|---|---|---|"]
for c in man:
    m, h = HOW.get(c["property"], ("", ""))
    th = ", ".join("`" + t.split(".")[-1] + "`" for t in c["theorems"])
    out.append(f"| {c['property']} {props[c['property']]['title']} | {m} | {h} | {c['status']} | {th} |")
missing = [c["property"] for c in man if c["property"] not in HOW]
assert not missing, missing
out += ["", "### Properties that are false of the code", ""]
for c in man:
    if c["status"] == "partial":
        out.append(f"* **{c['property']}** ({props[c['property']]['title']}): {c['note']}")
out += ["", TAIL.rstrip(), "", "### Axioms of each property theorem", "",
        "Output of `#print axioms` for every theorem named in MANIFEST.json (`tools/axioms.sh` regenerates it).", ""]
by = {}
for line in open(f"{ROOT}/tools/axioms.txt"):
    n, a = line.rstrip("\n").split(": ")
    by.setdefault(a, []).append(n)
listed = {n for v in by.values() for n in v}
need = {t for c in man for t in c["theorems"]}
assert need <= listed, sorted(need - listed)
for a, ns in sorted(by.items()):
    out.append(f"* `[{a}]`: " + ", ".join("`" + n.replace("PySLM2.", "") + "`" for n in ns if n in need))
open(f"{ROOT}/DESIGN.md", "w").write("\n".join(out) + "\n")
print("DESIGN.md", len(out), "lines")
