#!/usr/bin/env python3
"""Collect the property theorems (names Cxx_...) from the Lean sources and write MANIFEST.json.

Status and notes come from tools/status.json: {"C01": {"status": ..., "note": ...}, ...}.
Properties without theorems get status not_applicable with the note given there (or "not modelled yet").
"""
import json, re, glob, os
root = os.path.dirname(os.path.dirname(os.path.abspath(__file__)))
names = {}
for f in sorted(glob.glob(root + '/lean/Verif/**/*.lean', recursive=True)):
    ns = []
    depth = 0
    for line in open(f):
        m = re.match(r'namespace (\S+)', line)
        if m:
            ns.append(m.group(1)); continue
        m = re.match(r'end (\S+)', line)
        if m and ns and ns[-1] == m.group(1):
            ns.pop(); continue
        m = re.match(r'(?:private )?theorem (C\d\d+)_(\S+)', line)
        if m:
            names.setdefault(m.group(1), []).append('.'.join(ns + [m.group(1) + '_' + m.group(2)]))
props = [json.loads(l) for l in open(root + '/properties.jsonl')]
status = json.load(open(root + '/tools/status.json'))
claims = []
for p in props:
    i = p['id']
    s = status.get(i, {})
    th = names.get(i, [])
    st = s.get('status', 'proved' if th and not any(t.endswith('_partial') for t in th) else ('partial' if th else 'not_applicable'))
    note = s.get('note', '' if th else 'not modelled yet')
    claims.append({'property': i, 'status': st, 'theorems': th, 'note': note})
extra = set(names) - {p['id'] for p in props}
if extra:
    print('WARNING: theorems for unknown properties', extra)
with open(root + '/MANIFEST.json', 'w') as o:
    o.write('{"claims": [\n' + ',\n'.join(' ' + json.dumps(c, ensure_ascii=False) for c in claims) + '\n]}\n')
from collections import Counter
print(Counter(c['status'] for c in claims), sum(len(c['theorems']) for c in claims), 'theorems')
