#!/usr/bin/env python3
"""Regenerates MANIFEST.json from the theorem names cNN_* in lean/Verif/Props and tools/notes.json."""
import re, json, glob, os
root = os.path.dirname(os.path.dirname(os.path.abspath(__file__)))
notes = json.load(open(root + '/tools/notes.json'))
ids = [json.loads(l)['id'] for l in open(root + '/properties.jsonl') if l.strip()]
thms = {i: [] for i in ids}
for f in sorted(glob.glob(root + '/lean/Verif/Props/*.lean')):
    for m in re.finditer(r'^theorem (c(\d\d+)_\w+)', open(f).read(), re.M):
        thms['C' + m.group(2)].append('Verif.' + m.group(1))
claims = []
for i in ids:
    n = notes.get(i, {})
    ts = thms[i]
    if not ts and n.get('status') != 'not_applicable':
        continue
    st = n.get('status') or ('partial' if any(t.endswith('_partial') or t.endswith('_refuted') for t in ts) else 'proved')
    claims.append({'property': i, 'status': st, 'theorems': ts, 'note': n.get('note', '')})
json.dump({'claims': claims}, open(root + '/MANIFEST.json', 'w'), indent=1)
missing = [i for i in ids if not thms[i]]
print('claims', len(claims), 'missing', missing)
