#!/usr/bin/env python3
"""Writes /verif/MANIFEST.json. Theorems are collected by name prefix (C01_...) from lean/Verif/Props/*.lean;
status and note come from STATUS below."""
import json, re, glob, os
root = os.path.dirname(os.path.dirname(os.path.abspath(__file__)))
STATUS = {}
exec(open(os.path.join(root, 'tools', 'status.py')).read())
thms = {}
for f in sorted(glob.glob(os.path.join(root, 'lean/Verif/Props/*.lean'))):
    ns = []
    for line in open(f):
        m = re.match(r'namespace\s+(\S+)', line)
        if m: ns.append(m.group(1))
        m = re.match(r'end\s+(\S+)\s*$', line)
        if m and ns and ns[-1] == m.group(1): ns.pop()
        m = re.match(r'(?:private\s+|protected\s+)?theorem\s+((C\d\d)_\w+)', line)
        if m:
            thms.setdefault(m.group(2), []).append('.'.join(ns + [m.group(1)]))
claims = []
for l in open(os.path.join(root, 'properties.jsonl')):
    c = json.loads(l)['id']
    if c not in STATUS and c not in thms: 
        continue
    st, note = STATUS.get(c, ('partial', ''))
    claims.append({'property': c, 'status': st, 'theorems': thms.get(c, []), 'note': note})
json.dump({'claims': claims}, open(os.path.join(root, 'MANIFEST.json'), 'w'), indent=1)
for c in claims: print(c['property'], c['status'], len(c['theorems']))
