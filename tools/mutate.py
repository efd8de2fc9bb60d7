#!/usr/bin/env python3
"""Seeded-bug testing of the theorems.

usage: mutate.py MUTATIONS.json [id ...]

For every mutation (edit of one model definition) the Lean project is rebuilt in a scratch copy outside /verif. A declaration
whose proof no longer checks has its proof replaced by `sorry` *in the scratch copy only* so that the files importing it can be
checked as well; at the end the claimed theorems (MANIFEST.json) that depend on such a proof are reported as failed. A claimed
theorem that is not reported still proves against the wrong program.
"""
import json, os, re, shutil, subprocess, sys

DIR = os.environ.get('MUTDIR', '/tmp/mut')
SRC = DIR + '/base'  # snapshot of /verif/lean taken at the start of the run
WORK = DIR + '/lean'
OUT = '/tmp/mut/results.jsonl'

DECL = re.compile(r'^(?:@\[[^\]]*\]\s*)?(?:private |protected |noncomputable )*(theorem|lemma|def|example|instance|abbrev|inductive|structure)\b')
BOUNDARY = re.compile(r'^(?:@\[|private |protected |noncomputable |theorem|lemma|def |example|instance|abbrev|inductive|structure|namespace|section|end\b|open |variable|/--|/-!|/-|#|set_option|attribute|local |omit |include |deriving)')


def sync():
    os.makedirs(DIR, exist_ok=True)
    shutil.rmtree(WORK, ignore_errors=True)
    shutil.copytree(SRC, WORK, symlinks=True)


def build():
    r = subprocess.run(['lake', 'build'], cwd=WORK, capture_output=True, text=True, timeout=3000)
    return r.returncode, r.stdout + r.stderr


def errors(out):
    res = {}
    for m in re.finditer(r'^error: (?:\./)?(?:\./)*(?:/tmp/mut\w*/lean/)?(Verif/[\w/]+\.lean):(\d+):(\d+):', out, re.M):
        res.setdefault(m.group(1), set()).add(int(m.group(2)))
    return res


def decl_at(lines, ln):
    """start (0-based) and end (exclusive) of the declaration containing 1-based line ln"""
    i = ln - 1
    while i >= 0 and not DECL.match(lines[i]):
        i -= 1
    if i < 0:
        return None
    j = i + 1
    while j < len(lines) and not BOUNDARY.match(lines[j]):
        j += 1
    return i, j


def split_statement(text):
    """position of the body of a declaration (`:=` or an equation bar at depth 0)"""
    depth = 0
    i = 0
    n = len(text)
    while i < n:
        c = text[i]
        if text.startswith('--', i):
            while i < n and text[i] != '\n':
                i += 1
            continue
        if c in '([{⟨⦃':
            depth += 1
        elif c in ')]}⟩⦄':
            depth -= 1
        elif depth == 0:
            if text.startswith(':=', i) and not text[text.rfind('\n', 0, i) + 1:i].lstrip().startswith('let '):
                return i, ':='
            if text.startswith('\n  | ', i) or text.startswith('\n| ', i):
                return i, '|'
            if re.match(r'\swhere\s*\n', text[i:i + 12]):
                return i, 'where'
        i += 1
    return None


def name_of(header):
    m = re.match(r'(?:@\[[^\]]*\]\s*)?(?:private |protected |noncomputable )*(theorem|lemma|def|example|instance|abbrev)\s+(\S+)?', header)
    return (m.group(1), m.group(2)) if m else ('?', '?')


def sorry_out(path, lns):
    full = os.path.join(WORK, path)
    lines = open(full).read().split('\n')
    spans = set()
    for ln in lns:
        d = decl_at(lines, ln)
        if d:
            spans.add(d)
        else:
            raise SystemExit('no declaration at %s:%d' % (path, ln))
    broken = []
    for i, j in sorted(spans, reverse=True):
        text = '\n'.join(lines[i:j])
        kind, name = name_of(lines[i])
        if kind == 'example':
            broken.append('example(%s:%d)' % (path, i + 1))
            new = 'example : True := trivial' + '\n' * text.count('\n')  # keeps a doc comment attached
        else:
            broken.append(name)
            sp = split_statement(text)
            if sp is None or (kind not in ('theorem', 'lemma')):
                raise Exception('cannot patch %s %s in %s' % (kind, name, path))
            body = text[sp[0]:]
            if 'sorry' in body:
                raise Exception('already patched %s in %s:%d' % (name, path, i + 1))
            new = text[:sp[0]] + ' := by sorry' + '\n' * body.count('\n')
        lines[i:j] = new.split('\n')
    open(full, 'w').write('\n'.join(lines))
    return broken


CHECK = '''import Verif
import Lean
open Lean Elab Command
def claimed : List Name := [%s]
run_cmd do
  for n in claimed do
    if (← liftCoreM (collectAxioms n)).contains ``sorryAx then logInfo m!"FAILED {n}"
'''


def claimed():
    man = json.load(open(SRC + '/MANIFEST.json'))
    out = []
    for c in man['claims']:
        for t in c['theorems']:
            out.append((c['property'], t))
    return out


def run(mut):
    sync()
    for ed in mut['edits']:
        p = os.path.join(WORK, ed['file'])
        s = open(p).read()
        cnt = s.count(ed['old'])
        if cnt < 1 or (cnt > 1 and not ed.get('all')):
            raise SystemExit('%s: pattern occurs %d times in %s' % (mut['id'], cnt, ed['file']))
        open(p, 'w').write(s.replace(ed['old'], ed['new']))
    broken = []
    for it in range(40):
        rc, out = build()
        if rc == 0:
            break
        errs = errors(out)
        if not errs:
            return {'id': mut['id'], 'result': 'harness error', 'out': out[-2000:], 'broken': broken}
        try:
            for f, lns in errs.items():
                broken += sorry_out(f, lns)
        except Exception as ex:
            return {'id': mut['id'], 'result': 'stopped: %s' % ex, 'broken': broken, 'out': out[-1500:]}
    names = claimed()
    uniq = sorted({t for _, t in names})
    open(WORK + '/Check.lean', 'w').write(CHECK % ', '.join('`' + t for t in uniq))
    r = subprocess.run(['lake', 'env', 'lean', 'Check.lean'], cwd=WORK, capture_output=True, text=True)
    failed = re.findall(r'FAILED (\S+)', r.stdout)
    if r.returncode != 0:
        return {'id': mut['id'], 'result': 'check error', 'out': (r.stdout + r.stderr)[-2000:], 'broken': broken}
    props = sorted({p for p, t in names if t in failed})
    return {'id': mut['id'], 'result': 'ok', 'iterations': it, 'broken': broken, 'failed': failed, 'props': props}


if __name__ == '__main__':
    muts = json.load(open(sys.argv[1]))
    os.makedirs(DIR, exist_ok=True)
    shutil.rmtree(SRC, ignore_errors=True)
    shutil.copytree('/verif/lean', SRC, symlinks=True)
    shutil.copy('/verif/MANIFEST.json', SRC)
    want = set(sys.argv[2:])
    for mut in muts:
        if want and mut['id'] not in want:
            continue
        try:
            r = run(mut)
        except SystemExit as ex:
            r = {'id': mut['id'], 'result': str(ex)}
        open(OUT, 'a').write(json.dumps(r) + '\n')
        exp = set(mut.get('expect', []))
        print(mut['id'], r['result'], 'broken=%d' % len(r.get('broken', [])), 'props=', ' '.join(r.get('props', [])),
              '| MISSING:', ' '.join(sorted(exp - set(r.get('props', [])))), flush=True)
