#!/usr/bin/env python3
"""Write AXIOMS.md: the axioms of every theorem named in MANIFEST.json, as reported by Lean."""
import json, os, re, subprocess
root = os.path.dirname(os.path.dirname(os.path.abspath(__file__)))
thms = []
for c in json.load(open(root + '/MANIFEST.json'))['claims']:
    for t in c['theorems']:
        if t not in thms:
            thms.append(t)
f = '/tmp/axioms_check.lean'
open(f, 'w').write('import Verif\n' + ''.join('#print axioms %s\n' % t for t in thms))
out = subprocess.run(['lake', 'env', 'lean', f], cwd=root + '/lean', capture_output=True, text=True).stdout
out = re.sub(r'\n +', ' ', out)
rows, bad = [], []
for m in re.finditer(r"'(\S+)' (?:depends on axioms: \[(.*?)\]|(does not depend on any axioms))", out, re.S):
    ax = sorted(x.strip() for x in (m.group(2) or '').split(',') if x.strip())
    rows.append((m.group(1), ax))
    if not set(ax) <= {'propext', 'Classical.choice', 'Quot.sound'}:
        bad.append(m.group(1))
open(root + '/AXIOMS.md', 'w').write('# Axioms per theorem\n\nWritten by tools/axioms.py.\n\n| theorem | axioms |\n|---|---|\n' +
    ''.join('| %s | %s |\n' % (n, ', '.join(a) or 'none') for n, a in rows))
print(len(thms), 'theorems,', len(rows), 'reported, unexpected:', bad)
