#!/usr/bin/env python3
"""Regenerate MANIFEST.json from the theorem names in lean/Verif/Props and the notes below."""
import re, json, glob, os
root = os.path.dirname(os.path.dirname(os.path.abspath(__file__)))
notes = json.load(open(os.path.join(root, 'tools', 'notes.json')))
thms = {}
for f in sorted(glob.glob(os.path.join(root, 'lean/Verif/Props/*.lean'))):
    ns = []
    for line in open(f):
        m = re.match(r'namespace (\S+)', line)
        if m: ns.append(m.group(1))
        m = re.match(r'end (\S+)', line)
        if m and ns and ns[-1] == m.group(1): ns.pop()
        m = re.match(r'theorem (C\d\d+_\w+\'?)', line)
        if m:
            n = m.group(1)
            thms.setdefault(n.split('_')[0], []).append('.'.join(ns + [n]))
claims = []
for line in open(os.path.join(root, 'properties.jsonl')):
    p = json.loads(line)['id']
    t = thms.get(p, [])
    st, note = notes.get(p, ['', ''])
    if not t: 
        print('no theorem for', p); continue
    if not st: st = 'partial' if all(x.endswith('_partial') for x in t) else 'proved'
    claims.append({'property': p, 'status': st, 'theorems': t, 'note': note})
json.dump({'claims': claims}, open(os.path.join(root, 'MANIFEST.json'), 'w'), indent=1, ensure_ascii=False)
