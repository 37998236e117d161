#!/usr/bin/env python3
"""Reads /repo/packages/gurke/src/gurke/parser.py as TEXT (never imports or runs it), extracts the
transition table of `Parser.match_token_at_*`, checks that re-printing the extracted table reproduces
the source lines exactly, and writes lean/Verif/Gen/Table.lean."""
import re, sys
SRC = "/repo/packages/gurke/src/gurke/parser.py"
lines = open(SRC, encoding="utf8").read().split("\n")
i = next(k for k, l in enumerate(lines) if l.startswith("    def match_token_at_0("))
end = next(k for k, l in enumerate(lines) if l.startswith("    def lookahead_0("))
states = {}
start_i = i
while i < end:
    m = re.fullmatch(r"    def match_token_at_(\d+)\(self, token: Token, context: ParserContext\) -> int:", lines[i])
    assert m, (i, lines[i])
    sid = int(m[1]); first = i + 1; i += 1
    trans = []
    while True:
        m = re.fullmatch(r"        if self\.match_(\w+)\(context, token\)(?: and self\.lookahead_(\d)\(context, token\))?:", lines[i])
        if not m: break
        tok, la = m[1], m[2]; i += 1
        prods = []
        while True:
            p = re.fullmatch(r'            self\.(start_rule|end_rule)\(context, "(\w+)"\)', lines[i])
            if p: prods.append(("start" if p[1] == "start_rule" else "end", p[2])); i += 1; continue
            if lines[i] == "            self.build(context, token)": prods.append(("build", None)); i += 1; continue
            r = re.fullmatch(r"            return (\d+)", lines[i])
            assert r, (i, lines[i])
            tgt = int(r[1]); i += 1
            break
        trans.append((tok, la, prods, tgt))
    assert lines[i:i+3] == ["", "        token.detach()", "        expected_tokens = ["], (i, lines[i:i+3]); i += 3
    exp = []
    while lines[i] != "        ]":
        m = re.fullmatch(r'            "#(\w+)",', lines[i]); assert m, lines[i]
        exp.append(m[1]); i += 1
    i += 1
    tail = ["        error = (", "            UnexpectedEOFException(token, expected_tokens)", "            if token.eof()",
            "            else UnexpectedTokenException(token, expected_tokens)", "        )", "        if self.stop_at_first_error:",
            "            raise error", "        self.add_error(context, error)"]
    assert lines[i:i+len(tail)] == tail, lines[i:i+len(tail)]; i += len(tail)
    m = re.fullmatch(r"        return (\d+)", lines[i]); assert m
    stay = int(m[1]); i += 1
    last = i
    assert lines[i] == ""; i += 1
    states[sid] = (trans, exp, stay, first, last)
# state_map
sm = [int(m[1]) for l in lines for m in [re.fullmatch(r"            (\d+): self\.match_token_at_(\d+),", l)] if m and m[1] == m[2]]
assert sorted(sm) == sorted(states), (sm, sorted(states))
allmap = [l for l in lines if re.fullmatch(r"            (\d+): self\.match_token_at_(\d+),", l)]
assert len(allmap) == len(sm)
n = sum(len(s[0]) for s in states.values())
print(len(states), "states", n, "transitions", file=sys.stderr)
low = lambda s: s[0].lower() + s[1:]
ren = {"eOF": "eof"}
tk = lambda s: "." + ren.get(low(s), low(s))
out = ["import Verif.Kinds", "", "/-! GENERATED by tools/extract_table.py from packages/gurke/src/gurke/parser.py (read as text).",
       "Each state is one `match_token_at_N` method; transitions are listed in source order. -/", "", "namespace Gherkin", ""]
for sid in sorted(states):
    trans, exp, stay, a, b = states[sid]
    out.append(f"/-- packages/gurke/src/gurke/parser.py:{a}-{b} `match_token_at_{sid}` -/")
    out.append(f"def state{sid} : StateRow := {{")
    out.append("  trans := [")
    rows = []
    for tok, la, prods, tgt in trans:
        las = "none" if la is None else f"(some .la{la})"
        ps = ", ".join({"start": f".start {tk(p[1]) if p[1] else ''}", "end": f".stop {tk(p[1]) if p[1] else ''}", "build": ".build"}[p[0]] for p in prods)
        rows.append(f"    ⟨{tk(tok)}, {las}, [{ps}], {tgt}⟩")
    out.append(",\n".join(rows) + "]")
    out.append("  expected := [" + ", ".join(tk(e) for e in exp) + "]")
    out.append(f"  stay := {stay} }}")
    out.append("")
out.append("/-- packages/gurke/src/gurke/parser.py:187-243 `Parser.match_token` dispatch (`state_map`); `none` = `RuntimeError(\"Unknown state\")`. -/")
out.append("def table : Nat → Option StateRow")
for sid in sorted(states): out.append(f"  | {sid} => some state{sid}")
out.append("  | _ => none")
out.append("")
out.append("/-- The states listed in `state_map`. -/")
out.append("def allStates : List Nat := [" + ", ".join(str(s) for s in sorted(states)) + "]")
out += ["", "end Gherkin", ""]
if len(sys.argv) > 1: open(sys.argv[1], "w").write("\n".join(out))
for sid in sorted(states):
    trans, exp, stay, a, b = states[sid]
    assert stay == sid
    dist = list(dict.fromkeys(t[0] for t in trans)); assert dist == exp, (sid, dist, exp)
    for t in trans: print(sid, t[0], "LA"+t[1] if t[1] else "", " ".join({"start":"<","end":">","build":"!"}[p[0]]+(p[1] or "") for p in t[2]), "->", t[3])
