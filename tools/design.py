#!/usr/bin/env python3
"""Writes DESIGN.md."""
import json, os, re, collections
R = os.path.join(os.path.dirname(os.path.abspath(__file__)), "..")
V = os.path.join(R, "lean", "Verif")
def esc(s): return s.replace("|", "\\|").replace("\n", " ")
out = [open(os.path.join(R, "tools", "design_head.md")).read().rstrip(), ""]
props = [json.loads(l) for l in open(os.path.join(R, "properties.jsonl"))]
claims = {c["property"]: c for c in json.load(open(os.path.join(R, "MANIFEST.json")))["claims"]}
NOT = json.load(open(os.path.join(R, "tools", "not_expressed.json")))
out += ["## Properties", "", "| property | title | status | theorems | note |", "|---|---|---|---|---|"]
for p in props:
    c = claims.get(p["id"])
    if c:
        th = ", ".join("`" + t.replace("Verif.", "") + "`" for t in c["theorems"])
        out.append(f"| {p['id']} | {esc(p['title'])} | {c['status']} | {esc(th)} | {esc(c['note'])} |")
    else:
        out.append(f"| {p['id']} | {esc(p['title'])} | open | | {esc(NOT.get(p['id'], 'not yet modelled'))} |")
out.append("")
res = collections.defaultdict(lambda: collections.defaultdict(set))
for d, _, fs in os.walk(V):
    for f in fs:
        t = open(os.path.join(d, f)).read()
        for m in re.finditer(r"([A-Za-z_][A-Za-z_0-9-]*\.(?:cc|h|l|xsl|py|sh)):(\d+(?:-\d+)?(?:, \d+(?:-\d+)?)*)", t):
            for r in m.group(2).split(", "):
                a = r.split("-"); res[m.group(1)][os.path.relpath(os.path.join(d, f), V)].add((int(a[0]), int(a[-1])))
out += ["## Code that is modelled", "", "Lines cited by definitions and theorems (merged), and the Lean files that cite them.", "", "| file | lines | Lean files |", "|---|---|---|"]
for f in sorted(res):
    mg = []
    for lo, hi in sorted(set().union(*res[f].values())):
        if mg and lo <= mg[-1][1] + 3: mg[-1][1] = max(mg[-1][1], hi)
        else: mg.append([lo, hi])
    out.append(f"| {f} | {', '.join(f'{a}–{b}' if a != b else str(a) for a, b in mg)} | {', '.join(sorted(res[f]))} |")
out += ["", open(os.path.join(R, "tools", "design_plan.md")).read().rstrip(), ""]
open(os.path.join(R, "DESIGN.md"), "w").write("\n".join(out))
