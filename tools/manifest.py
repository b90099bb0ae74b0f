#!/usr/bin/env python3
"""Regenerates MANIFEST.json from tools/claims.txt.
Line format:  Cxx | status | thm1 thm2 ... | note"""
import json, os, re, subprocess
root = os.path.dirname(os.path.dirname(os.path.abspath(__file__)))
claims = []
for line in open(os.path.join(root, 'tools/claims.txt')):
    line = line.strip()
    if not line or line.startswith('#'): continue
    pid, status, thms, note = [x.strip() for x in line.split('|', 3)]
    claims.append({"property": pid, "status": status,
                   "theorems": ["Verif.Props." + t for t in thms.split()], "note": note})
src = subprocess.run(['grep', '-rhoE', r'^theorem \S+', os.path.join(root, 'lean/Verif/Props')],
                     capture_output=True, text=True).stdout
names = {l.split()[1] for l in src.splitlines()}
used = set()
for c in claims:
    for t in c["theorems"]:
        n = t[len("Verif.Props."):]
        used.add(n)
        if n not in names: print("MISSING THEOREM", t)
for n in sorted(names - used):
    if re.match(r'C\d\d', n): print("unlisted theorem", n)
json.dump({"claims": claims}, open(os.path.join(root, 'MANIFEST.json'), 'w'), indent=1)
