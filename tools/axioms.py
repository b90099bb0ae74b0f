#!/usr/bin/env python3
"""Write AXIOMS.md: the axioms each claimed theorem depends on (as printed by Lean)."""
import json, re, subprocess
names = []
for c in json.load(open('/verif/MANIFEST.json'))['claims']:
    for t in c['theorems']:
        if t not in names: names.append(t)
src = 'import Verif\n' + ''.join(f'#print axioms {n}\n' for n in names)
open('/tmp/axioms.lean', 'w').write(src)
out = subprocess.run(['lake', 'env', 'lean', '/tmp/axioms.lean'], cwd='/verif/lean', capture_output=True, text=True).stdout
got = {}
for m in re.finditer(r"'([^']+(?:'(?= (?:does|depends)))?[^']*)' (does not depend on any axioms|depends on axioms: \[([^\]]*)\])", out):
    got[m.group(1)] = sorted(x.strip() for x in (m.group(3) or '').replace('\n', ' ').split(',') if x.strip())
groups = {}
for n in names: groups.setdefault(tuple(got.get(n, ['?'])), []).append(n)
with open('/verif/AXIOMS.md', 'w') as f:
    f.write('# Axioms of the claimed theorems\n\nGenerated by `tools/axioms.py` from `#print axioms`.\n')
    for k, v in sorted(groups.items(), key=lambda kv: len(kv[0])):
        f.write(f"\n## {', '.join(k) if k else 'no axioms'} ({len(v)})\n\n" + '\n'.join('* `' + n + '`' for n in v) + '\n')
print({k: len(v) for k, v in groups.items()})
