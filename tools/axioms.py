#!/usr/bin/env python3
"""Write AXIOMS.md: the axioms each theorem of the manifest depends on (run after `lake build`)."""
import json, subprocess, re
claims = json.load(open('/verif/MANIFEST.json'))['claims']
names = [t for c in claims for t in c['theorems']]
names = list(dict.fromkeys(names))
src = 'import Verif\n' + ''.join(f'#print axioms {n}\n' for n in names)
open('/tmp/axioms.lean', 'w').write(src)
out = subprocess.run(['lake', 'env', 'lean', '/tmp/axioms.lean'], cwd='/verif/lean', capture_output=True, text=True).stdout
out = re.sub(r'\n\s+', ' ', out)
res = {}
for m in re.finditer(r"'([^']+)' (?:depends on axioms: \[([^\]]*)\]|does not depend on any axioms)", out):
    res[m.group(1)] = m.group(2) or 'none'
miss = [n for n in names if n not in res]
assert not miss, miss[:3]
groups = {}
for n in names: groups.setdefault(res[n], []).append(n)
with open('/verif/AXIOMS.md', 'w') as f:
    f.write('# Axioms of the theorems in MANIFEST.json\n\nOutput of `#print axioms`, written by `tools/axioms.py`.\n')
    for ax in sorted(groups, key=lambda a: (a != 'none', a)):
        f.write(f'\n## {ax} ({len(groups[ax])} theorems)\n\n')
        for n in sorted(groups[ax]): f.write(f'* `{n}`\n')
print({a: len(g) for a, g in groups.items()})
