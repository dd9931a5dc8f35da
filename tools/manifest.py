#!/usr/bin/env python3
"""Write MANIFEST.json from the table below; checks that every named theorem occurs in the Lean sources."""
import json, re, glob, os
root = os.path.dirname(os.path.dirname(os.path.abspath(__file__)))
P = 'SpMP.Props.'
claims = []
def c(prop, status, thms, note):
    claims.append({"property": prop, "status": status, "theorems": [P + t for t in thms], "note": note})

exec(open(os.path.join(root, 'tools', 'claims.py')).read())

src = "".join(open(f).read() for f in glob.glob(root + '/lean/Verif/**/*.lean', recursive=True))
names = set(re.findall(r'^theorem (\S+)', src, re.M))
bad = [t for cl in claims for t in cl["theorems"] if t[len(P):] not in names]
ids = [json.loads(l)["id"] for l in open(root + '/properties.jsonl')]
missing = [i for i in ids if i not in {cl["property"] for cl in claims}]
for i in missing:
    claims.append({"property": i, "status": "partial", "theorems": [], "note": "not proved yet"})
claims.sort(key=lambda x: x["property"])
json.dump({"claims": claims}, open(root + '/MANIFEST.json', 'w'), indent=1)
print("unknown theorems:", bad)
print("no claim yet:", missing)
used = {t[len(P):] for cl in claims for t in cl["theorems"]}
props = "".join(open(f).read() for f in glob.glob(root + '/lean/Verif/Props/*.lean'))
print("property theorems not in manifest:", sorted(set(re.findall(r'^theorem (C\d\d\S+)', props, re.M)) - used))
