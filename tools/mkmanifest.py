#!/usr/bin/env python3
"""Writes MANIFEST.json: theorem names are collected from the Lean sources by their Cnn_ prefix."""
import json, re, glob, os
root = os.path.dirname(os.path.dirname(os.path.abspath(__file__)))
notes = json.load(open(os.path.join(root, 'tools', 'notes.json')))
thms = {}
for f in sorted(glob.glob(root + '/lean/Verif/*.lean')):
    for m in re.finditer(r'^theorem\s+(?:_root_\.Conch\.)?(C(\d\d)_\w+)', open(f).read(), re.M):
        thms.setdefault('C' + m.group(2), []).append('Conch.' + m.group(1))
claims = []
props = [json.loads(l)['id'] for l in open(root + '/properties.jsonl')]
for c in props:
    n = notes.get(c, {})
    if c in thms or 'status' in n:
        claims.append({'property': c, 'status': n.get('status', 'proved'), 'theorems': thms.get(c, []), 'note': n.get('note', '')})
json.dump({'claims': claims}, open(root + '/MANIFEST.json', 'w'), indent=1, ensure_ascii=False)
print(len(claims), 'claims;', 'missing:', [c for c in props if c not in thms])
