#!/usr/bin/env python3
"""claim.py ID STATUS "thm1 thm2" "note": add or replace one entry of claims.json."""
import json, os, sys
p = os.path.join(os.path.dirname(os.path.abspath(__file__)), "claims.json")
c = json.load(open(p))
i, s, t, n = sys.argv[1:5]
c[i] = {"status": s, "theorems": ["Htrpc." + x for x in t.split()], "note": n}
json.dump(dict(sorted(c.items())), open(p, "w"), indent=1, ensure_ascii=False)
