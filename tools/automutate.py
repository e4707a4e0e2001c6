#!/usr/bin/env python3
"""Automatic seeded bugs. usage: automutate.py seed per_file [Model ...]
Random small edits of the definitions in lean/Verif/Model (flipped booleans, boundaries, dropped updates, dropped events),
each built in a scratch copy /tmp/am. Survivors are printed for inspection; killed mutants are appended to seeded/LOG.jsonl."""
import json, os, re, random, shutil, subprocess, sys
root = os.path.dirname(os.path.dirname(os.path.abspath(__file__)))
am = '/tmp/am'
seed, per = int(sys.argv[1]), int(sys.argv[2])
names = sys.argv[3:] or sorted(f[:-5] for f in os.listdir(root + '/lean/Verif/Model'))
rnd = random.Random(seed)
claims = {}
for l in open(root + '/tools/claims.txt'):
    p = l.split(' | ')
    if len(p) >= 3:
        for t in p[2].split(','):
            claims.setdefault(t.strip(), []).append(p[0].strip())

def strip(src):
    """line -> is code of a definition"""
    ok, depth, indef = [], 0, False
    for l in src.split('\n'):
        s = l.strip()
        start = depth
        depth += s.count('/-') - s.count('-/')
        if re.match(r'(theorem|example|instance|@\[simp\] theorem|inductive|structure|abbrev|namespace|open|end|deriving)', l): indef = False
        elif re.match(r'(?:@\[\w+\] )?(?:private )?def ', l): indef = True
        ok.append(indef and start == 0 and not s.startswith('--') and not s.startswith('/-') and s != '')
    return ok

def edits(l):
    code = l.split(' -- ')[0]
    out = []
    def sub(pat, rep, what):
        for m in re.finditer(pat, code):
            new = code[:m.start()] + m.expand(rep) + code[m.end():] + l[len(code):]
            out.append((new, what))
    sub(r'\btrue\b', 'false', 'true becomes false')
    sub(r'\bfalse\b', 'true', 'false becomes true')
    sub(r' < ', ' ≤ ', '< becomes ≤')
    sub(r' ≤ ', ' < ', '≤ becomes <')
    sub(r' \+ 1\b', '', '+ 1 dropped')
    sub(r' - 1\b', '', '- 1 dropped')
    if re.search(r'\bif\b', code):
        sub(r' = ', ' ≠ ', '= becomes ≠')
        sub(r' ≠ ', ' = ', '≠ becomes =')
        sub(r' && ', ' || ', '&& becomes ||')
        sub(r' ∧ ', ' ∨ ', '∧ becomes ∨')
    sub(r' \+\+ \[[^\[\]]*\]', '', 'appended element dropped')
    sub(r'\{ (\w+) with (\w+) := [^{},]*(?:\([^{}]*?\))? \}', r'\1', 'update dropped')
    sub(r', (\w+) := [^{},()]*(?:\([^(){}]*\))?[^{},()]*(?=[,}])', ' ', 'one field of an update dropped')
    sub(r'with (\w+) := [^{},()]*(?:\([^(){}]*\))?[^{},()]*, ', 'with ', 'first field of an update dropped')
    sub(r'\.erase \w+', '', 'erase dropped')
    sub(r'\.filter \([^()]*\)', '', 'filter dropped')
    sub(r'\b0\b', '1', '0 becomes 1')
    return out

base = '/tmp/am_base'
shutil.rmtree(base, ignore_errors=True); subprocess.run(['cp', '-a', root + '/lean', base], check=True)
subprocess.run(['lake', 'build'], cwd=base, capture_output=True)
jobs = []
for n in names:
    src = open(f'{base}/Verif/Model/{n}.lean').read().split('\n')
    ok = strip('\n'.join(src))
    cand = []
    for i, l in enumerate(src):
        if ok[i] and ':=' not in l.split('def')[-1][:0]:
            body = l
            for new, what in edits(body):
                if re.match(r'(?:@\[\w+\] )?(?:private )?def ', l) and ':=' in l and new.split(':=')[0] != l.split(':=')[0]: continue
                cand.append((i, l, new, what))
    rnd.shuffle(cand)
    seen, picked = {}, []
    for c in cand:
        if seen.get(c[0], 0) < 2:
            seen[c[0]] = seen.get(c[0], 0) + 1; picked.append(c)
    jobs.append((n, picked))
pos = {n: 0 for n, _ in jobs}
done = {n: 0 for n, _ in jobs}
def run(n, c):
    i, l, new, what = c
    shutil.rmtree(am, ignore_errors=True); subprocess.run(['cp', '-a', base, am], check=True)
    p = f'{am}/Verif/Model/{n}.lean'
    src = open(p).read().split('\n'); src[i] = new; open(p, 'w').write('\n'.join(src))
    d = '?'
    ns = ''
    for k in range(i, -1, -1):
        if m := re.match(r'(?:@\[\w+\] )?(?:private )?def (\S+)', src[k]): d = m[1]; break
    for k in range(i, -1, -1):
        if m := re.match(r'namespace (\S+)', src[k]): ns = m[1]; break
    r = subprocess.run(['lake', 'build', f'Verif.Model.{n}'], cwd=am, capture_output=True, text=True)
    if r.returncode: return None
    r = subprocess.run(['lake', 'build'], cwd=am, capture_output=True, text=True)
    out = r.stdout + r.stderr
    fails = []
    for g in re.finditer(r'error: (Verif/\S+?\.lean):(\d+):', out):
        lines = open(am + '/' + g[1]).read().split('\n')[:int(g[2])]
        name = None
        for x in reversed(lines):
            if h := re.match(r'(?:private |protected )?(?:theorem|def|example|instance)\s*(\S*)', x):
                name = h[1] if not x.startswith('example') else 'example'; break
        t = g[1][6:-5] + ':' + str(name)
        if t not in fails: fails.append(t)
    ids = sorted({c for f in fails for c in claims.get(ns + '.' + f.split(':')[1], [])})
    rec = {"definition": f'{ns}.{d}', "edit": f'automatic, {what}: `{l.strip()}` → `{new.strip()}`',
           "claim": ', '.join(ids) if ids else f'claims about {ns} (automatic edit, not attributed)', "failed": fails,
           "failed_modules": sorted(set(re.findall(r'- (Verif\.\S+)', out))), "tightened": []}
    return rec
for rd in range(per):
    for n, cs in jobs:
        while pos[n] < len(cs):
            c = cs[pos[n]]; pos[n] += 1
            rec = run(n, c)
            if rec is None: continue
            print(('SURVIVED ' if not rec['failed'] else 'killed ') + json.dumps(rec, ensure_ascii=False)[:900], flush=True)
            if rec['failed']: open(root + '/seeded/LOG.jsonl', 'a').write(json.dumps(rec) + '\n')
            break
