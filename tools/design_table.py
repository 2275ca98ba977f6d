#!/usr/bin/env python3
"""Refresh the generated table of DESIGN.md (between the two marker lines) from properties and manifest."""
import json
P = {}
for l in open('/verif/properties.jsonl'):
    x = json.loads(l); P[x['id']] = x
rows = ['| id | claim | status | note | theorems |', '|----|-------|--------|------|----------|']
for c in sorted(json.load(open('/verif/MANIFEST.json'))['claims'], key=lambda c: int(c['property'][1:])):
    th = ', '.join('`' + t.split('.')[-1] + '`' for t in c['theorems'])
    rows.append(f"| {c['property']} | {P[c['property']]['title']} | {c['status']} | {c.get('note','').replace('|','/')} | {th} |")
p = '/verif/DESIGN.md'
s = open(p).read()
a, b = '<!-- status table begin -->', '<!-- status table end -->'
i, j = s.index(a) + len(a), s.index(b)
open(p, 'w').write(s[:i] + '\n' + '\n'.join(rows) + '\n' + s[j:])
