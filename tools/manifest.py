#!/usr/bin/env python3
"""Regenerate MANIFEST.json from the property theorems in lean/Verif/Props."""
import glob, json, os, re
root = os.path.dirname(os.path.dirname(os.path.abspath(__file__)))
notes = json.load(open(os.path.join(root, 'tools', 'notes.json')))
props = [json.loads(l) for l in open(os.path.join(root, 'properties.jsonl')) if l.strip()]
thms = {}
for f in sorted(glob.glob(os.path.join(root, 'lean/Verif/Props/*.lean'))):
    for m in re.finditer(r'^theorem (C\d\d\w*)', open(f).read(), re.M):
        thms.setdefault(re.match(r'C\d+', m.group(1)).group(), []).append('Dync.' + m.group(1))
claims = []
for p in props:
    ts = thms.get(p['id'], [])
    n = notes.get(p['id'], {})
    if not ts:
        status, note = 'partial', 'no theorem yet'
    else:
        status = n.get('status') or ('partial' if any(re.search(r'_partial|_refuted', t) for t in ts) else 'proved')
        note = n.get('note', '')
    claims.append({'property': p['id'], 'status': status, 'theorems': ts, 'note': note})
json.dump({'claims': claims}, open(os.path.join(root, 'MANIFEST.json'), 'w'), indent=1, ensure_ascii=False)
for c in claims:
    print(c['property'], c['status'], len(c['theorems']), '' if c['note'] else '(no note)')
