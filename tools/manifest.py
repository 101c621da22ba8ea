"""Writes /verif/MANIFEST.json from tools/claims.txt and an axiom check file for the theorems.

claims.txt: blocks separated by blank lines:
  Cnn status
  Full.theorem.name ...
  note text
"""
import json, re, os
root = os.path.dirname(os.path.dirname(os.path.abspath(__file__)))
claims = []
for block in open(os.path.join(root, "tools/claims.txt")).read().strip().split("\n\n"):
    lines = block.strip().split("\n")
    pid, status = lines[0].split()
    thms = [t for t in lines[1].split() if t != "-"]
    note = " ".join(lines[2:])
    claims.append({"property": pid, "status": status, "theorems": thms, "note": note})
props = [json.loads(l)["id"] for l in open(os.path.join(root, "properties.jsonl"))]
have = {c["property"] for c in claims}
for p in props:
    if p not in have:
        print("missing claim:", p)
for c in claims:
    if c["property"] not in props:
        print("unknown property:", c["property"])
json.dump({"claims": claims}, open(os.path.join(root, "MANIFEST.json"), "w"), indent=1)
with open("/tmp/Axioms.lean", "w") as f:
    f.write("import Verif\n")
    for c in claims:
        for t in c["theorems"]:
            f.write(f"#print axioms {t}\n")
