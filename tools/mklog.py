#!/usr/bin/env python3
"""seeded/LOG.jsonl from the results of tools/mutate.py (one line per attempt) and seeded/tightened.json (id -> theorems
tightened or added because of the attempt)."""
import json, os, subprocess
muts = {m['id']: m for m in json.loads(subprocess.run(['python3', '/verif/seeded/mutations.py'], capture_output=True, text=True).stdout)}
tp = '/verif/seeded/tightened.json'
tight = json.load(open(tp)) if os.path.exists(tp) else {}
last = {}
for line in open('/tmp/mut/results.jsonl'):
    r = json.loads(line)
    if r['id'] in muts:
        last[r['id']] = r
old = {}
if os.path.exists('/verif/seeded/LOG.jsonl'):
    for line in open('/verif/seeded/LOG.jsonl'):
        o = json.loads(line)
        old[o['id']] = o
for i, r in last.items():
    m = muts[i]
    old[i] = {'id': i, 'definition': m['definition'],
              'edit': [{'file': e['file'], 'from': e['old'], 'to': e['new']} for e in m['edits']],
              'claim_broken': m['claim'], 'properties_expected': m.get('expect', []),
              'result': r['result'], 'theorems_failed': r.get('failed', []), 'lemmas_failed_first': r.get('broken', []),
              'expected_but_not_failed': sorted(set(m.get('expect', [])) - set(r.get('props', []))) if r['result'] == 'ok' else [],
              'theorems_tightened': tight.get(i, [])}
with open('/verif/seeded/LOG.jsonl', 'w') as f:
    for i in sorted(old):
        f.write(json.dumps(old[i], ensure_ascii=False) + '\n')
print(len(old), [i for i in old if old[i]['result'] != 'ok' or old[i].get('expected_but_not_failed')])
