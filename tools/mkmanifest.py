#!/usr/bin/env python3
"""Writes MANIFEST.json. Claims not listed here are 'partial' with no theorem yet."""
import json, re, glob
C = {}
def claim(p, status, theorems, note): C[p] = dict(property=p, status=status, theorems=theorems, note=note)
exec(open('/verif/tools/claims.py').read())
ids = [json.loads(l)['id'] for l in open('/verif/properties.jsonl')]
src = ''.join(open(f).read() for f in glob.glob('/verif/lean/Verif/**/*.lean', recursive=True))
out = []
for i in ids:
    if i in C:
        for t in C[i]['theorems']:
            last = t.split('.')[-1]
            assert re.search(r'theorem\s+(\S*\.)?' + re.escape(last) + r'\b', src), t
        out.append(C[i])
    else:
        out.append(dict(property=i, status='partial', theorems=[], note='not proved yet'))
json.dump({'claims': out}, open('/verif/MANIFEST.json', 'w'), indent=1)
print(sum(c['status'] == 'proved' for c in out), 'proved of', len(out))
