#!/usr/bin/env python3
"""Write MANIFEST.json from the table below and check that every theorem named exists."""
import json, os, re, sys
ROOT = os.path.dirname(os.path.dirname(os.path.abspath(__file__)))
CLAIMS = json.load(open(os.path.join(ROOT, "tools", "claims.json")))
src = ""
for d, _, fs in os.walk(os.path.join(ROOT, "lean", "Verif")):
    for f in fs:
        if f.endswith(".lean"):
            src += open(os.path.join(d, f)).read() + "\n"
names = set(re.findall(r"^(?:protected |private )?theorem\s+([^\s:({\[]+)", src, re.M))
ids = [json.loads(l)["id"] for l in open(os.path.join(ROOT, "properties.jsonl")) if l.strip()]
bad = False
out = []
for i in ids:
    c = CLAIMS.get(i)
    if not c:
        print("no claim for", i); continue
    for t in c["theorems"]:
        if t.split("Dax.", 1)[-1] not in names:
            print("unknown theorem", t); bad = True
    ns = ["Dax." + t.split("Dax.", 1)[-1] for t in c["theorems"]]
    out.append({"property": i, "status": c["status"], "theorems": ns, "note": c["note"]})
mentioned = {t for c in CLAIMS.values() for t in c["theorems"]}
for n in sorted(names):
    if re.match(r"C\d+_", n) and n not in mentioned:
        print("not in manifest:", n)
titles = {p["id"]: p["title"] for p in map(json.loads, filter(str.strip, open(os.path.join(ROOT, "properties.jsonl"))))}
dpath = os.path.join(ROOT, "DESIGN.md")
design = open(dpath).read()
a, b = "<!-- results: written by tools/manifest.py -->\n", "<!-- end of results -->"
rows = "".join("* **%s %s** (%s). %s\n  Theorems: %s.\n" % (c["property"], titles[c["property"]], c["status"], c["note"],
    ", ".join("`%s`" % t[4:] for t in c["theorems"])) for c in out)
design = design[:design.index(a) + len(a)] + "\n" + rows + "\n" + design[design.index(b):]
open(dpath, "w").write(design)
json.dump({"claims": out}, open(os.path.join(ROOT, "MANIFEST.json"), "w"), indent=1)
print(len(out), "claims")
sys.exit(bad)
