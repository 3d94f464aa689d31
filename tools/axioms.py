"""Prints AXIOMS.md: the axioms every claimed theorem (MANIFEST.json) depends on, as Lean reports them.
Run from /verif after `lake build`; the queries are put in a temporary file outside the repository."""
import json, re, subprocess, tempfile, os
claims = json.load(open('MANIFEST.json'))['claims']
names = [(c['property'], t) for c in claims for t in c['theorems']]
with tempfile.NamedTemporaryFile('w', suffix='.lean', delete=False) as f:
    f.write('import Verif\n' + ''.join(f'#print axioms {t}\n' for _, t in names))
out = subprocess.run(['lake', 'env', 'lean', f.name], cwd='lean', capture_output=True, text=True).stdout
os.unlink(f.name)
ax = {}
for m in re.finditer(r"'([^']+)' (does not depend on any axioms|depends on axioms: \[([^\]]*)\])", out, re.S):
    ax[m.group(1)] = ', '.join(sorted(x.strip() for x in (m.group(3) or '').split(',') if x.strip())) or 'none'
groups = {}
for p, t in names:
    groups.setdefault(ax[t], []).append((p, t))
print('# Axioms the claimed theorems depend on\n')
print('Generated by `tools/axioms.py` (`#print axioms` for each theorem named in MANIFEST.json).\n')
for g in sorted(groups):
    print(f'## {g} ({len(groups[g])} theorems)\n')
    by = {}
    for p, t in groups[g]:
        by.setdefault(p, []).append(t.split('.')[-1])
    for p in by:
        print(f'* {p}: ' + ', '.join(by[p]))
    print()
