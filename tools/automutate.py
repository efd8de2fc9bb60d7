#!/usr/bin/env python3
"""Systematic small edits of the model.

usage: automutate.py SEED COUNT

Every code line of Verif/Model/*.lean is edited by simple operators (comparison, offset, constant, direction, flag, axis swaps).
COUNT edits are drawn with SEED. Each is built in a scratch copy outside /verif; the build stops at the first theorem that no
longer checks. An edit after which every theorem still checks is reported as a survivor and must be explained or lead to a
tighter theorem. Results: $MUTDIR/auto.jsonl.
"""
import glob, json, os, random, re, shutil, signal, subprocess, sys
sys.path.insert(0, os.path.dirname(os.path.abspath(__file__)))
os.environ.setdefault('MUTDIR', '/tmp/mut3')
import mutate
from mutate import SRC, WORK, DIR, sync, decl_at, name_of

OPS = [(' < ', ' ≤ '), (' ≤ ', ' < '), (' > ', ' ≥ '), (' ≥ ', ' > '), (' + 1', ' + 2'), (' - 1', ' - 2'), (' + ', ' - '), (' - ', ' + '),
       (' 1)', ' 2)'), (' 0)', ' 1)'), ('= 0', '= 1'), ('= 1', '= 0'), (' == ', ' != '), (' != ', ' == '), (' = ', ' ≠ '), (' ≠ ', ' = '),
       ('true', 'false'), ('false', 'true'), (' && ', ' || '), (' || ', ' && '), (' ∧ ', ' ∨ '), (' ∨ ', ' ∧ '),
       ('isEven', 'isOdd'), ('horizontal', 'vertical'), ('vertical', 'horizontal'), (' h v', ' v h'), (' w h', ' h w'),
       ('usub', 'uadd'), ('uadd', 'usub'), ('isub', 'iadd'), ('iadd', 'isub'), ('umul', 'uadd'),
       ('.panic', '.ub'), ('.ub', '.panic'), ('.incoming', '.outgoing'), ('.outgoing', '.incoming'),
       ('.forward', '.backward'), ('.backward', '.forward'), ('.foward', '.backward'), ('.backward', '.foward'),
       ('.n ', '.s '), ('.N', '.S'), ('.S', '.N'), ('.E', '.W'), ('.W', '.E'), ('.NE', '.SE'), ('.SE', '.NE'), ('.NW', '.SW'), ('.SW', '.NW'),
       ('.NS', '.WE'), ('.up', '.down'), ('.down', '.up'), ('.left', '.right'), ('.right', '.left'),
       ('.1', '.2'), ('.2', '.1'), ('if ', 'if ¬ '), ('else none', 'else default'), ('% 2', '% 3'), ('/ 2', '/ 3'), ('source', 'target'), ('target', 'source')]


def sites():
    out = []
    for f in sorted(glob.glob(SRC + '/Verif/Model/*.lean')):
        rel = os.path.relpath(f, SRC)
        text = open(f).read()
        # blank comments, keeping positions
        code = re.sub(r'/-.*?-/', lambda m: re.sub(r'[^\n]', ' ', m.group(0)), text, flags=re.S)
        code = re.sub(r'--[^\n]*', lambda m: ' ' * len(m.group(0)), code)
        lines = code.split('\n')
        for k, ln in enumerate(lines):
            d = decl_at(lines, k + 1)
            if not d or not ln.strip() or k >= d[1]:
                continue
            kind, name = name_of(lines[d[0]])
            if kind in ('theorem', 'lemma', 'example', '?'):
                continue
            for a, b in OPS:
                if a == ' = ' and (':=' in ln or 'if ' not in ln):
                    continue
                for m in re.finditer(re.escape(a), ln):
                    # patterns of a match, binders and termination hints: the edit would not compile
                    seg = ln[:m.start()]
                    if '=>' in ln[m.end():] and '|' in seg and '=>' not in seg[seg.rindex('|'):] or 'termination_by' in ln or 'decreasing' in ln:
                        continue
                    if a[-1].isalnum() and re.match(r'\w', ln[m.end():m.end() + 1]):
                        continue
                    if a[0].isalpha() and m.start() and re.match(r'[\w.]', ln[m.start() - 1]) and a != 'target':
                        continue
                    out.append((rel, k, m.start(), a, b, name))
    return out


def attempt(site):
    rel, k, pos, a, b, name = site
    sync()
    p = os.path.join(WORK, rel)
    lines = open(p).read().split('\n')
    old = lines[k]
    lines[k] = old[:pos] + b + old[pos + len(a):]
    open(p, 'w').write('\n'.join(lines))
    res = {'file': rel, 'line': k + 1, 'definition': name, 'from': old, 'to': lines[k]}
    pr = subprocess.Popen(['nice', 'lake', 'build'], cwd=WORK, stdout=subprocess.PIPE, stderr=subprocess.STDOUT, text=True, start_new_session=True)
    soft = []
    verdict = None
    try:
        for line in pr.stdout:
            m = re.match(r'error: (?:\./)*(?:/tmp/mut\w*/lean/)?(Verif/[\w/]+\.lean):(\d+):(\d+):', line)
            if not m:
                continue
            f, ln = m.group(1), int(m.group(2))
            ls = open(os.path.join(WORK, f)).read().split('\n')
            d = decl_at(ls, ln)
            kind, nm = name_of(ls[d[0]]) if d else ('?', '?')
            if kind in ('theorem', 'lemma'):
                verdict = 'killed'
                res['first'] = '%s (%s)' % (nm, f)
                break
            if f.startswith('Verif/Model/'):
                verdict = 'invalid'
                break
            soft.append('%s %s %s:%d' % (kind, nm, f, ln))
    finally:
        try:
            os.killpg(pr.pid, signal.SIGTERM)
        except ProcessLookupError:
            pass
        pr.wait()
    res['verdict'] = verdict or ('examples only' if soft else 'survived')
    res['soft'] = soft
    return res


if __name__ == '__main__':
    os.makedirs(DIR, exist_ok=True)
    shutil.rmtree(SRC, ignore_errors=True)
    shutil.copytree('/verif/lean', SRC, symlinks=True)
    ss = sites()
    random.Random(int(sys.argv[1])).shuffle(ss)
    print(len(ss), 'sites', flush=True)
    done = set()
    if os.path.exists(DIR + '/auto.jsonl'):
        for l in open(DIR + '/auto.jsonl'):
            o = json.loads(l)
            done.add((o['file'], o['from'], o['to']))
    n = 0
    for s in ss:
        if n >= int(sys.argv[2]):
            break
        r = None
        rel, k, pos, a, b, name = s
        old = open(os.path.join(SRC, rel)).read().split('\n')[k]
        if (rel, old, old[:pos] + b + old[pos + len(a):]) in done:
            continue
        r = attempt(s)
        n += 1
        open(DIR + '/auto.jsonl', 'a').write(json.dumps(r, ensure_ascii=False) + '\n')
        print(n, r['verdict'], r['file'][12:], r['line'], r['definition'], '|', r['to'].strip()[:110], '|', r.get('first', ''), flush=True)
