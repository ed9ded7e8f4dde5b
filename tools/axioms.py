#!/usr/bin/env python3
"""Writes /verif/AXIOMS.md: the axioms each theorem of MANIFEST.json depends on (run after `lake build`)."""
import json, subprocess, re
m = json.load(open('/verif/MANIFEST.json'))['claims']
names = [t for c in m for t in c['theorems']]
open('/tmp/ax.lean', 'w').write("import Verif\n" + "".join(f"#print axioms {n}\n" for n in names))
r = subprocess.run("cd /verif/lean && lake env lean /tmp/ax.lean", shell=True, capture_output=True, text=True)
out = re.sub(r"\n\s+", " ", r.stdout + r.stderr)
rows = []
for l in out.splitlines():
    mm = re.match(r"'(.*)' (does not depend on any axioms|depends on axioms: \[(.*)\])", l)
    if not mm:
        raise SystemExit("unexpected: " + l)
    rows.append((mm.group(1), mm.group(3) or 'none'))
assert len(rows) == len(names)
open('/verif/AXIOMS.md', 'w').write("# Axioms per theorem (`#print axioms`)\n\n| theorem | axioms |\n|---|---|\n" +
    "".join(f"| {a} | {b} |\n" for a, b in rows))
print(len(rows), sorted({b for _, b in rows}))
