# Writes the table of axioms of the claimed theorems into DESIGN.md.  Needs a built project.
import json, os, re, subprocess
root = os.path.dirname(os.path.dirname(os.path.abspath(__file__)))
names = []
for c in json.load(open(root + '/MANIFEST.json'))['claims']:
    for t in c['theorems']:
        if t not in names: names.append(t)
src = 'import Verif\n' + ''.join(f'#print axioms {t}\n' for t in names)
p = '/tmp/Axioms.lean'
open(p, 'w').write(src)
out = subprocess.run(['lake', 'env', 'lean', p], cwd=root + '/lean', capture_output=True, text=True).stdout
groups = {}
for m in re.finditer(r"'(\S+)' (does not depend on any axioms|depends on axioms: \[([^\]]*)\])", out):
    ax = ', '.join(sorted(x.strip() for x in (m[3] or '').split(',') if x.strip())) or 'none'
    groups.setdefault(ax, []).append(m[1].replace('Verif.', ''))
assert sum(map(len, groups.values())) == len(names), (len(names), out[-500:])
t = ''.join(f'* **{a}** ({len(n)} theorems): ' + ', '.join(f'`{x}`' for x in sorted(n)) + '\n' for a, n in sorted(groups.items()))
d = open(root + '/DESIGN.md').read()
i, j = d.index('<!-- axioms -->'), d.index('<!-- end axioms -->')
open(root + '/DESIGN.md', 'w').write(d[:i] + '<!-- axioms -->\n' + t + d[j:])
print({a: len(n) for a, n in groups.items()})
