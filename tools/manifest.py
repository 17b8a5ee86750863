#!/usr/bin/env python3
"""Regenerate MANIFEST.json from the theorem names in lean/Verif/Props and tools/notes.json."""
import json, re, glob, os
root = os.path.dirname(os.path.dirname(os.path.abspath(__file__)))
thms = {}
for f in sorted(glob.glob(root + '/lean/Verif/Props/*.lean')):
    ns = []
    for line in open(f):
        m = re.match(r'namespace (\S+)', line)
        if m: ns.append(m.group(1))
        m = re.match(r'end (\S+)', line)
        if m and ns and ns[-1] == m.group(1): ns.pop()
        m = re.match(r'theorem (C(\d\d+)_\S+)', line)
        if m: thms.setdefault('C' + m.group(2), []).append('.'.join(ns + [m.group(1)]))
notes = json.load(open(root + '/tools/notes.json'))
claims = []
for l in open(root + '/properties.jsonl'):
    if not l.strip(): continue
    pid = json.loads(l)['id']
    if pid in notes and pid in thms:
        claims.append({'property': pid, 'status': notes[pid]['status'], 'theorems': thms[pid],
                       'note': notes[pid]['note']})
    elif pid in thms:
        print('no note for', pid)
json.dump({'claims': claims}, open(root + '/MANIFEST.json', 'w'), indent=1, ensure_ascii=False)
print(len(claims), 'claims')
