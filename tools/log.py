#!/usr/bin/env python3
"""Append results of mutate.py to seeded/LOG.jsonl.

usage: log.py OUT.jsonl [TIGHTENED.json]

TIGHTENED.json maps "definition: old -> new" of an edit to the theorems tightened because of it.
"""
import json, os, sys
root = os.path.join(os.path.dirname(os.path.abspath(__file__)), '..')
tight = json.load(open(sys.argv[2])) if len(sys.argv) > 2 else {}
path = root + '/seeded/LOG.jsonl'
seen = set()
if os.path.exists(path):
    for l in open(path):
        d = json.loads(l)
        seen.add((d['definition'], d['edit'], str(d['theorems_failed'])))
n = 0
with open(path, 'a') as f:
    for l in open(sys.argv[1]):
        d = json.loads(l)
        if d.get('error'):
            continue
        edit = '%s -> %s' % (d['old'], d['new'])
        if (d['definition'], edit, str(d['killed'])) in seen:
            continue
        seen.add((d['definition'], edit, str(d['killed'])))
        f.write(json.dumps({
            'file': 'lean/Verif/' + d['file'],
            'definition': d['definition'],
            'edit': edit,
            'claim': d['claim'],
            'expected': d.get('expect', []),
            'theorems_failed': d['killed'],
            'lemmas_failed': [x for x in d['failed'] if x and x not in d['killed']],
            'examples_failed': len(d.get('examples', [])),
            'theorems_tightened': tight.get('%s: %s' % (d['definition'], edit), []),
        }, ensure_ascii=False) + '\n')
        n += 1
print(n, 'added')
