#!/usr/bin/env python3
"""usage: add_claim.py ID STATUS "thm thm ..." "note"   (edits claims.json, regenerates the manifest)"""
import json, os, subprocess, sys
d = os.path.dirname(os.path.abspath(__file__))
p = os.path.join(d, "claims.json")
c = json.load(open(p))
i, status, thms, note = sys.argv[1:5]
c[i] = {"status": status, "theorems": thms.split(), "note": note}
c = dict(sorted(c.items(), key=lambda x: int(x[0][1:])))
with open(p, "w") as f:
    json.dump(c, f, indent=1, ensure_ascii=False); f.write("\n")
subprocess.check_call([sys.executable, os.path.join(d, "gen_manifest.py")])
