#!/usr/bin/env python3
"""Fold the results of tools/automutate.py into seeded/LOG.jsonl as entries aNNNN.

`theorems_failed` lists the theorem that stopped the build first and the claimed theorems (MANIFEST.json) whose proofs need it.
seeded/auto_notes.json explains the edits after which every theorem still checked (by file and edited line) and what was done.
"""
import json, os, re, subprocess
RES = '/tmp/mut3/auto.jsonl'
man = json.load(open('/verif/MANIFEST.json'))
names = sorted({t for c in man['claims'] for t in c['theorems']})
lean = '''import Verif
import Lean
open Lean Elab Command
partial def clo (env : Environment) (todo : List Name) (seen : NameSet) : NameSet :=
  match todo with
  | [] => seen
  | n :: r => if seen.contains n || !(`LG).isPrefixOf n then clo env r seen else
    match env.find? n with
    | none => clo env r (seen.insert n)
    | some c =>
      let v := match c.value? (allowOpaque := true) with | some d => d.getUsedConstants.toList | none => []
      clo env (c.type.getUsedConstants.toList ++ v ++ r) (seen.insert n)
run_cmd do
  let env ← getEnv
  for t in ([%s] : List Name) do
    let s := clo env [t] {}
    IO.println s!"{t}\\t{" ".intercalate ((s.toList.filter fun n => match env.find? n with | some (.thmInfo _) => !n.isInternal | _ => false).map toString)}"
''' % ', '.join('`' + (n if n.startswith('LG.') else 'LG.' + n) for n in names)
open('/tmp/Deps.lean', 'w').write(lean)
out = subprocess.run(['lake', 'env', 'lean', '/tmp/Deps.lean'], cwd='/verif/lean', capture_output=True, text=True).stdout
users = {}
for line in out.split('\n'):
    if '\t' in line:
        t, ds = line.split('\t')
        for d in ds.split():
            users.setdefault(d, []).append(t)
full = {}
for d in users:
    full.setdefault(d.split('.')[-1], set()).add(d)
np = '/verif/seeded/auto_notes.json'
notes = {(n['file'], n['to']): n for n in json.load(open(np))} if os.path.exists(np) else {}
log = [json.loads(l) for l in open('/verif/seeded/LOG.jsonl')]
ids = {(o['edit'][0]['file'], o['edit'][0]['from'], o['edit'][0]['to'], o['edit'][0].get('line')): o for o in log if o['id'].startswith('a')}
nxt = max([int(o["id"][1:]) for o in log if o["id"].startswith("a")] + [0]) + 1


def doc(f, name, line):
    ls = open('/verif/lean/' + f).read().split('\n')
    for k in range(min(line, len(ls)) - 1, -1, -1):
        if re.match(r'\s*(?:@\[.*\]\s*)?(?:private |protected |noncomputable )*(def|abbrev|instance|structure|inductive)\b', ls[k]):
            j = k - 1
            if j >= 0 and ls[j].rstrip().endswith('-/'):
                i = j
                while i > 0 and '/--' not in ls[i]:
                    i -= 1
                return re.sub(r'\s+', ' ', ' '.join(ls[i:j + 1]).replace('/--', '').replace('-/', '')).strip()
            return ''
    return ''


todo = []
for l in open(RES):
    r = json.loads(l)
    if r['verdict'] == 'invalid' or ' ++ id ' in r['to']:
        continue
    key = (r['file'], r['from'].strip(), r['to'].strip(), r['line'])
    n = notes.get((r['file'], r['to'].strip()))
    if key in ids:
        o = ids[key]
    else:
        o = {'id': 'a%04d' % nxt}
        nxt += 1
        ids[key] = o
    first = r.get('first', '').split(' ')[0]
    cand = full.get(first.split('.')[-1], set())
    if 'Legacy' in r.get('first', '') and len(cand) > 1:
        cand = {c for c in cand if c.startswith('LG.Sq')} or cand
    fails = sorted({t for c in cand for t in users[c]})
    o.update({'definition': r['definition'], 'edit': [{'file': r['file'], 'from': key[1], 'to': key[2], 'line': r['line']}],
              'claim_broken': (n or {}).get('claim') or 'the definition no longer does what the cited code does: ' + doc(r['file'], r['definition'], r['line']),
              'result': 'ok' if r['verdict'] == 'killed' else ('equivalent edit: ' + n['note'] if n and n.get('equivalent') else 'survived, then tightened: ' + n['note'] if n else 'survived'),
              'theorems_failed': fails or ([first] if first else (n or {}).get('now_fails', [])), 'lemmas_failed_first': [first] if first else [],
              'theorems_tightened': (n or {}).get('tightened', [])})
log = [o for o in log if not o['id'].startswith('a')] + sorted(ids.values(), key=lambda o: o['id'])
with open('/verif/seeded/LOG.jsonl', 'w') as f:
    for o in log:
        f.write(json.dumps(o, ensure_ascii=False) + '\n')
print(len(log), 'entries;', len(users), 'theorems in use; unexplained:', [o['id'] + ' ' + o['definition'] for o in log if o['result'] == 'survived'],
      'no claimed theorem:', [o['id'] + ' ' + str(o['lemmas_failed_first']) for o in ids.values() if o['result'] == 'ok' and not o['theorems_failed'][0].split('.')[-1].startswith('c')][:20])
