#!/usr/bin/env python3
"""Writes MANIFEST.json. Theorem names are collected from lean/Verif/Props by their C<nn>_ prefix."""
import glob, json, os, re
root = os.path.dirname(os.path.dirname(os.path.abspath(__file__)))
names = {}
for f in sorted(glob.glob(root + '/lean/Verif/Props/**/*.lean', recursive=True)):
    ns = []
    for line in open(f):
        m = re.match(r'namespace (\S+)', line)
        if m: ns.append(m.group(1))
        m = re.match(r'end (\S+)', line)
        if m and ns and ns[-1] == m.group(1): ns.pop()
        m = re.match(r'theorem ((C\d\d+)_\S+)', line)
        if m: names.setdefault(m.group(2), []).append('.'.join(ns + [m.group(1)]))
exec(open(root + '/tools/status.py').read())   # STATUS : id -> (status, note)
claims = []
for line in open(root + '/properties.jsonl'):
    i = json.loads(line)['id']
    if i not in STATUS or i not in names: 
        continue
    st, note = STATUS[i]
    claims.append({'property': i, 'status': st, 'theorems': names[i], 'note': note})
json.dump({'claims': claims}, open(root + '/MANIFEST.json', 'w'), indent=1, ensure_ascii=False)
print(len(claims), 'claims;', 'without status:', sorted(set(names) - set(STATUS)), 'without theorem:', sorted(set(STATUS) - set(names)))
