#!/usr/bin/env python3
"""Writes /verif/AXIOMS.md: the axioms each theorem of the manifest depends on (needs an up-to-date `lake build`)."""
import json, subprocess
claims = json.load(open('/verif/MANIFEST.json'))['claims']
names = [t for c in claims for t in c['theorems']]
src = 'import Verif\nopen Lean\nset_option maxHeartbeats 0\n' + ''.join(
    f'run_cmd do\n  let a ← collectAxioms ``{n}\n  IO.println s!"{n}|{{String.intercalate ", " (a.toList.map toString).mergeSort}}"\n'
    for n in dict.fromkeys(names))
open('/tmp/axioms.lean', 'w').write(src)
r = subprocess.run('lake env lean /tmp/axioms.lean', shell=True, capture_output=True, text=True, cwd='/verif/lean')
ax = dict(l.split('|', 1) for l in r.stdout.splitlines() if '|' in l)
missing = [n for n in names if n not in ax]
if missing: print('missing', missing, r.stdout[:1000], r.stderr[:1000])
with open('/verif/AXIOMS.md', 'w') as f:
    f.write('# Axioms each theorem depends on\n\nGenerated by `tools/axioms.py` (`Lean.collectAxioms`).\n\n| property | theorem | axioms |\n|---|---|---|\n')
    for c in claims:
        for t in c['theorems']: f.write(f"| {c['property']} | `{t}` | {ax.get(t, '?') or 'none'} |\n")
print(len(names), sorted({x for v in ax.values() for x in v.split(', ')}))
