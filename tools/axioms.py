#!/usr/bin/env python3
"""Rewrite section 6 of DESIGN.md: the axioms of every theorem named in MANIFEST.json."""
import json, os, re, subprocess, tempfile
root = os.path.dirname(os.path.dirname(os.path.abspath(__file__)))
names = [t for c in json.load(open(root + '/MANIFEST.json'))['claims'] for t in c['theorems']]
with tempfile.NamedTemporaryFile('w', suffix='.lean', delete=False) as f:
    f.write('import Verif\n' + ''.join(f'#print axioms {n}\n' for n in names))
out = subprocess.run(['lake', 'env', 'lean', f.name], cwd=root + '/lean', capture_output=True, text=True).stdout
groups = {}
for n, ax in re.findall(r"'([^']+)' (does not depend on any axioms|depends on axioms: \[[^\]]*\])", out.replace('\n', ' ')):
    key = 'none' if ax.startswith('does not') else ', '.join(x.strip() for x in ax.split('[')[1][:-1].split(','))
    groups.setdefault(key, []).append(n.split('.')[-1])
assert sum(map(len, groups.values())) == len(names), (len(names), out[-2000:])
lines = ['As printed by `#print axioms` (regenerate with `tools/axioms.py`).', '']
for k in sorted(groups, key=lambda k: (k != 'none', k)):
    lines += [f'**{k}** ({len(groups[k])} theorems): ' + ', '.join(f'`{n}`' for n in sorted(groups[k])) + '.', '']
p = root + '/DESIGN.md'
s = open(p).read()
i = s.index('## 6. Axioms per theorem')
open(p, 'w').write(s[:i] + '## 6. Axioms per theorem\n\n' + '\n'.join(lines).rstrip() + '\n')
print({k: len(v) for k, v in groups.items()})
