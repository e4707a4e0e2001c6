#!/usr/bin/env python3
"""Writes /verif/MANIFEST.json and /verif/lean/Verif.lean from tools/claims.txt and the tree.
claims.txt lines:  Cxx | status | thm, thm, ... | note"""
import json, os, re
root = os.path.dirname(os.path.dirname(os.path.abspath(__file__)))
claims = []
for l in open(root + '/tools/claims.txt'):
    l = l.strip()
    if not l or l.startswith('#'): continue
    i, st, th, note = [x.strip() for x in l.split('|', 3)]
    claims.append({"property": i, "status": st, "theorems": [t.strip() for t in th.split(',') if t.strip()], "note": note})
json.dump({"claims": claims}, open(root + '/MANIFEST.json', 'w'), indent=1)
mods = []
for d, _, fs in os.walk(root + '/lean/Verif'):
    for f in fs:
        if f.endswith('.lean'):
            mods.append(os.path.relpath(os.path.join(d, f), root + '/lean')[:-5].replace('/', '.'))
open(root + '/lean/Verif.lean', 'w').write(''.join(f'import {m}\n' for m in sorted(mods)))
# check that the theorems exist
names = set()
for m in mods:
    ns = []
    for line in open(root + '/lean/' + m.replace('.', '/') + '.lean'):
        if g := re.match(r'namespace (\S+)', line): ns.append(g[1])
        elif g := re.match(r'end (\S+)', line):
            if ns and ns[-1] == g[1]: ns.pop()
        elif g := re.match(r'(?:protected )?theorem (\S+)', line): names.add('.'.join(ns + [g[1]]))
have = {json.loads(l)['id'] for l in open(root + '/properties.jsonl')}
for c in claims:
    have.discard(c['property'])
    for t in c['theorems']:
        if t not in names: print('MISSING', c['property'], t)
    if c['status'] == 'partial' and not any(t.endswith('_partial') for t in c['theorems']): print('NO PARTIAL', c['property'])
print('uncovered:', sorted(have))
