#!/usr/bin/env python3
"""Write AXIOMS.md: the axioms each theorem named in MANIFEST.json depends on, as printed by Lean. Needs a built lean/."""
import json, os, re, subprocess, tempfile
root = os.path.abspath(os.path.join(os.path.dirname(__file__), '..'))
m = json.load(open(root + '/MANIFEST.json'))
ths = [(c['property'], t) for c in m['claims'] for t in c['theorems']]
with tempfile.NamedTemporaryFile('w', suffix='.lean', delete=False) as f:
    f.write('import Verif\n' + ''.join('#print axioms %s\n' % t for t in dict.fromkeys(t for _, t in ths)))
out = subprocess.run(['lake', 'env', 'lean', f.name], cwd=root + '/lean', stdout=subprocess.PIPE, text=True).stdout
ax = {}
for a in re.finditer(r"'(\S+)' (depends on axioms: \[([^\]]*)\]|does not depend on any axioms)", out):
    ax[a.group(1)] = ' '.join((a.group(3) or 'none').replace(',', ' ').split())
with open(root + '/AXIOMS.md', 'w') as g:
    g.write('# Axioms of the theorems in MANIFEST.json\n\nPrinted by `#print axioms` (`tools/axioms.py`). Definitions in the list are the full statements that are refuted.\n\n| property | theorem | axioms |\n|---|---|---|\n')
    for p, t in ths:
        g.write('| %s | `%s` | %s |\n' % (p, t.replace('Verif.Props.', ''), ax.get(t, '?')))
print(sorted(set(ax.values())), [t for _, t in ths if t not in ax])
