#!/usr/bin/env python3
"""Writes lean/Verif/Gen/Dialects.lean from the text of gherkin-languages.json."""
import json, re, sys
SRC="/repo/packages/gurke/src/gurke/gherkin-languages.json"
text=open(SRC,encoding="utf8").read()
def pairs(p):
    assert len(dict(p))==len(p); return dict(p)
D=json.loads(text,object_pairs_hook=pairs)
lines=text.split("\n")
def lineof(n): return next(i+1 for i,l in enumerate(lines) if l.strip().startswith('"%s": {'%n))
def s(x):
    assert '"' not in x and "\\" not in x and x.isprintable() or all(c in "\u200c\u200d" or c.isprintable() for c in x)
    return 'py"'+"".join("\\u%04x"%ord(c) if c in "\u200c\u200d" else c for c in x)+'"'
def sl(xs): return "["+", ".join(s(x) for x in xs)+"]"
F=["feature","rule","scenario","scenarioOutline","background","examples","given","when","then","and","but"]
N=dict(feature="feature",rule="rule",scenario="scenario",scenarioOutline="scenarioOutline",background="background",examples="examples",given="given",when="when_",then="then_",but="but_")
N["and"]="and_"
out=["import Verif.Dialect","","/-! GENERATED by tools/extract_dialects.py from packages/gurke/src/gurke/gherkin-languages.json. -/","","namespace Gherkin",""]
ids=[]
for n,d in D.items():
    i="dial_"+n.replace("-","_"); ids.append((n,i))
    out.append(f"/-- packages/gurke/src/gurke/gherkin-languages.json:{lineof(n)} `{n}` -/")
    out.append(f"def {i} : Dialect where")
    for f in F: out.append(f"  {N[f]} := {sl(d[f])}")
    out.append("")
out.append("/-- packages/gurke/src/gurke/dialect.py:10-11 `DIALECTS` (the whole of gherkin-languages.json, in file order). -/")
out.append("def dialects : List (Str × Dialect) := [")
out.append(",\n".join(f"  ({s(n)}, {i})" for n,i in ids)+"]")
out+=["","end Gherkin",""]
open(sys.argv[1],"w",encoding="utf8").write("\n".join(out))
