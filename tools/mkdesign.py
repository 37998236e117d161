"""Writes the axiom table of DESIGN.md (between the markers) from the output of `#print axioms` for every theorem of MANIFEST.json."""
import json, re, subprocess, pathlib
root = pathlib.Path(__file__).resolve().parent.parent
claims = json.loads((root / 'MANIFEST.json').read_text())['claims']
names = [t for c in claims for t in c['theorems']]
src = pathlib.Path('/tmp/axioms_all.lean')
src.write_text('import Verif\n' + '\n'.join('#print axioms ' + n for n in names) + '\n')
out = subprocess.run(['lake', 'env', 'lean', str(src)], cwd=root / 'lean', capture_output=True, text=True).stdout
ax = {}
for m in re.finditer(r"'([^']+)' (?:depends on axioms: \[([^\]]*)\]|(does not depend on any axioms))", out):
    ax[m.group(1)] = ', '.join(x.strip() for x in (m.group(2) or '').split(',') if x.strip()) or 'none'
short = {'propext': 'P', 'Classical.choice': 'C', 'Quot.sound': 'Q'}
rows = ['| claim | status | theorem | axioms |', '|---|---|---|---|']
for c in claims:
    for t in c['theorems']:
        rows.append(f"| {c['property']} | {c['status']} | `{t}` | {' '.join(short[a] for a in ax[t].split(', ')) if ax[t] != 'none' else 'none'} |")
d = root / 'DESIGN.md'
s = d.read_text()
a, b = '<!-- axioms -->\n', '<!-- end axioms -->'
s = s[:s.index(a) + len(a)] + '\n'.join(rows) + '\n' + s[s.index(b):]
d.write_text(s)
