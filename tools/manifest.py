#!/usr/bin/env python3
"""Writes MANIFEST.json.  Theorem names are collected from lean/Verif/Props/*.lean: every theorem whose name starts with the
property id belongs to that property.  STATUS and NOTE are kept here by hand."""
import glob, json, os, re
ROOT = os.path.dirname(os.path.dirname(os.path.abspath(__file__)))
exec(open(os.path.join(ROOT, 'tools', 'notes.py')).read())
names = {}
for f in sorted(glob.glob(ROOT + '/lean/Verif/Props/*.lean')):
    text = open(f).read()
    for m in re.finditer(r'^theorem (C\d\d+)(_[A-Za-z0-9_\']+)', text, re.M):
        names.setdefault(m.group(1), []).append('Verif.' + m.group(1) + m.group(2))
claims = []
for line in open(ROOT + '/properties.jsonl'):
    pid = json.loads(line)['id']
    ths = names.get(pid, [])
    if not ths:
        continue
    status, note = NOTES.get(pid, ('proved', ''))
    claims.append({'property': pid, 'status': status, 'theorems': ths, 'note': note})
json.dump({'claims': claims}, open(ROOT + '/MANIFEST.json', 'w'), indent=1)
print(len(claims), 'claims', sum(len(c['theorems']) for c in claims), 'theorems')
