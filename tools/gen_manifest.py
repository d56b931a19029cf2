#!/usr/bin/env python3
"""Regenerates MANIFEST.json: scans lean/Verif/Props for theorems named Cnn_* and takes the
status and note of each property from tools/status.json."""
import json, re, glob, os
root = os.path.dirname(os.path.dirname(os.path.abspath(__file__)))
st = json.load(open(root + '/tools/status.json'))
ths = {}
for f in sorted(glob.glob(root + '/lean/Verif/Props/*.lean')):
    ns = []
    for line in open(f):
        m = re.match(r'namespace (\S+)', line)
        if m: ns.append(m.group(1)); continue
        m = re.match(r'end (\S+)', line)
        if m and ns and ns[-1] == m.group(1): ns.pop(); continue
        m = re.match(r'theorem (C\d+_\S+)', line)
        if m: ths.setdefault(m.group(1).split('_')[0], []).append('.'.join(ns + [m.group(1)]))
claims = []
for l in open(root + '/properties.jsonl'):
    i = json.loads(l)['id']
    s = st.get(i, {'status': 'partial', 'note': 'in progress'})
    claims.append({'property': i, 'status': s['status'] if ths.get(i) else ('not_applicable' if s['status']=='not_applicable' else 'partial'), 'theorems': ths.get(i, []), 'note': s['note']})
json.dump({'claims': claims}, open(root + '/MANIFEST.json', 'w'), indent=1)
for c in claims: print(c['property'], c['status'], len(c['theorems']))
