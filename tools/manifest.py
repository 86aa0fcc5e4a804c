#!/usr/bin/env python3
"""write MANIFEST.json from the claims below"""
import json, os
C = []
def claim(p, status, thms, note): C.append(dict(property=p, status=status, theorems=["CppAD." + t for t in thms], note=note))
exec(open(os.path.join(os.path.dirname(__file__), "claims.py")).read())
ids = [json.loads(l)["id"] for l in open(os.path.join(os.path.dirname(__file__), "..", "properties.jsonl"))]
have = {c["property"] for c in C}
json.dump({"claims": C}, open(os.path.join(os.path.dirname(__file__), "..", "MANIFEST.json"), "w"), indent=1)
print("missing:", [i for i in ids if i not in have])
