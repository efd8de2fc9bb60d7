#!/usr/bin/env python3
"""Writes MANIFEST.json from tools/claims.json, checking that every theorem named exists and that every
theorem of Verif/Props named cNN_... is claimed."""
import json, re, glob, sys
claims = json.load(open('/verif/tools/claims.json'))
decl = {}
for f in glob.glob('/verif/lean/Verif/**/*.lean', recursive=True):
    text = open(f).read()
    pre = 'Sq.' if re.search(r'^namespace LG\.Sq', text, re.M) else ''
    for m in re.finditer(r'^(?:@\[[^\]]*\] *)?theorem ([A-Za-z0-9_.\']+)', text, re.M):
        decl[pre + m.group(1)] = f
props = [json.loads(l)['id'] for l in open('/verif/properties.jsonl')]
bad = False
out, used = [], set()
for p in props:
    if p not in claims:
        continue
    c = claims[p]
    for t in c['theorems']:
        used.add(t)
        if t not in decl:
            print('missing theorem', p, t); bad = True
    if c['status'] == 'partial' and not any(t.endswith('_partial') for t in c['theorems']):
        print('partial claim without _partial theorem', p)
    out.append({'property': p, 'status': c['status'], 'theorems': ['LG.' + t for t in c['theorems']], 'note': c['note']})
for t, f in decl.items():
    if '/Props/' in f and re.match(r'(Sq\.)?c\d\d_', t) and t not in used:
        print('unclaimed', t)
print('claims', len(out), 'of', len(props), 'without claim:', [p for p in props if p not in claims])
json.dump({'claims': out}, open('/verif/MANIFEST.json', 'w'), indent=1)
sys.exit(bad)
