#!/usr/bin/env python3
"""Writes AXIOMS.md: the axioms each manifest theorem depends on, as reported by Lean (run after lake build)."""
import json, subprocess, re, os
root = os.path.dirname(os.path.dirname(os.path.abspath(__file__)))
m = json.load(open(root + '/MANIFEST.json'))
names = [t for c in m['claims'] for t in c['theorems']]
src = 'import Verif\n' + ''.join(f'#print axioms {n}\n' for n in names)
open('/tmp/ax.lean', 'w').write(src)
out = subprocess.run(['lake', 'env', 'lean', '/tmp/ax.lean'], cwd=root + '/lean', capture_output=True, text=True).stdout
res = {}
for n, a in re.findall(r"'(\S+)' depends on axioms: \[(.*?)\]", out, re.S):
    res[n] = ' '.join(a.replace('\n', ' ').replace(',', ' ').split())
for n in re.findall(r"'(\S+)' does not depend on any axioms", out):
    res[n] = '(none)'
missing = [n for n in names if n not in res]
assert not missing, missing
groups = {}
for n in names:
    groups.setdefault(res[n], []).append(n)
with open(root + '/AXIOMS.md', 'w') as f:
    f.write('# Axioms of the manifest theorems\n\nGenerated by tools/axioms.py with `#print axioms`; no other axioms occur.\n')
    for a in sorted(groups, key=len):
        f.write(f'\n## {a}\n\n' + ', '.join('`' + x.replace('Verif.', '', 1) + '`' for x in groups[a]) + '\n')
print({a: len(g) for a, g in groups.items()})
