#!/usr/bin/env python3
"""Write AXIOMS.md: the axioms each claimed theorem depends on, as Lean reports them.  Run after `lake build`."""
import json, re, subprocess, tempfile, os, collections
root = os.path.dirname(os.path.dirname(os.path.abspath(__file__)))
claims = json.load(open(root + '/MANIFEST.json'))['claims']
names = []
for c in claims:
    for t in c['theorems']:
        if t not in names:
            names.append(t)
src = 'import Verif\n' + ''.join('#print axioms %s\n' % n for n in names)
with tempfile.NamedTemporaryFile('w', suffix='.lean', delete=False) as f:
    f.write(src)
out = subprocess.run(['lake', 'env', 'lean', f.name], cwd=root + '/lean', capture_output=True, text=True).stdout
os.unlink(f.name)
ax = {}
for m in re.finditer(r"'([^']+(?:'[^' ]*)*)' (does not depend on any axioms|depends on axioms: \[([^\]]*)\])", out):
    ax[m.group(1)] = ' '.join((m.group(3) or '').replace(',', ' ').split()) or 'none'
missing = [n for n in names if n not in ax]
if missing:
    raise SystemExit('no answer for: ' + ' '.join(missing))
groups = collections.defaultdict(list)
for n in names:
    groups[ax[n]].append(n)
with open(root + '/AXIOMS.md', 'w') as o:
    o.write('# Axioms of the claimed theorems\n\nWritten by tools/axioms.py from the output of `#print axioms`.\n')
    for g in sorted(groups, key=lambda g: (len(g.split()), g)):
        o.write('\n## %s (%d)\n\n' % (g, len(groups[g])))
        for n in groups[g]:
            o.write('* `%s`\n' % n)
print({g: len(v) for g, v in groups.items()})
