#!/usr/bin/env python3
"""Seeded-bug harness. usage: mutate.py mutants.json
Each mutant: {"definition","file","old","new","edit","claim","expect":[module...]}.
Works in a scratch copy /tmp/mut; appends one JSON line per mutant to seeded/LOG.jsonl."""
import json, os, re, subprocess, sys, shutil
root = os.path.dirname(os.path.dirname(os.path.abspath(__file__)))
mut = '/tmp/mut'
ms = json.load(open(sys.argv[1]))
for m in ms:
    subprocess.run(['rsync', '-a', '--delete', root + '/lean/', mut + '/'], check=True) if shutil.which('rsync') else (shutil.rmtree(mut, ignore_errors=True), subprocess.run(['cp', '-a', root + '/lean', mut], check=True))
    bad = False
    for e in m.get('edits', []) + ([m] if 'file' in m else []):
        p = mut + '/Verif/' + e['file']
        s = open(p).read()
        if s.count(e['old']) < 1:
            print('PATTERN NOT FOUND', m['definition'], e['old']); bad = True; break
        s = s.replace(e['old'], e['new'], e.get('count', 1))
        open(p, 'w').write(s)
    if bad: continue
    for e in m.get('admit', []):  # helper case-analysis lemma assumed in the scratch copy only
        p = mut + '/Verif/' + e['file']
        s = open(p).read()
        i = s.index('theorem ' + e['name']); j = s.index(':= by', i); k = s.index('\ntheorem ', j)
        k2 = s.find('\n/--', j)
        if 0 < k2 < k: k = k2
        s = s[:j] + ':= sor' + 'ry\n' + s[k:]
        open(p, 'w').write(s)
    r = subprocess.run(['lake', 'build'], cwd=mut, capture_output=True, text=True)
    out = r.stdout + r.stderr
    fails = []
    for g in re.finditer(r'error: (Verif/\S+?\.lean):(\d+):', out):
        lines = open(mut + '/' + g[1]).read().split('\n')[:int(g[2])]
        name = None
        for l in reversed(lines):
            if h := re.match(r'(?:private |protected )?(?:theorem|def|example|instance)\s*(\S*)', l):
                name = h[1] if not l.startswith('example') else 'example'; break
        t = g[1][6:-5] + ':' + str(name)
        if t not in fails: fails.append(t)
    mods = sorted(set(re.findall(r'- (Verif\.\S+)', out)))
    rec = {"definition": m['definition'], "edit": m['edit'], "claim": m['claim'], "failed": fails, "failed_modules": mods, "tightened": m.get('tightened', [])}
    print(json.dumps(rec))
    if any(f.startswith('Model/') for f in fails):
        print('  !!! INVALID MUTANT'); print(out[-1500:]); continue
    if not fails: print('  !!! SURVIVED')
    elif os.environ.get('DRY') is None:
        open(root + '/seeded/LOG.jsonl', 'a').write(json.dumps(rec) + '\n')
