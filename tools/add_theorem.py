#!/usr/bin/env python3
"""usage: add_theorem.py ID thm ...   (adds theorems to a claim, regenerates the manifest)"""
import json, os, subprocess, sys
d = os.path.dirname(os.path.abspath(__file__))
p = os.path.join(d, "claims.json")
c = json.load(open(p))
for t in sys.argv[2:]:
    if t not in c[sys.argv[1]]["theorems"]:
        c[sys.argv[1]]["theorems"].append(t)
with open(p, "w") as f:
    json.dump(c, f, indent=1, ensure_ascii=False); f.write("\n")
subprocess.check_call([sys.executable, os.path.join(d, "gen_manifest.py")])
