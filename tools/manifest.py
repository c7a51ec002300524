# Writes MANIFEST.json from the table below, checking that every theorem name occurs in the sources.
import json,re,glob,sys
src="\n".join(open(f).read() for f in glob.glob('/verif/lean/Verif/Props/*.lean'))
names=set(re.findall(r'theorem ([A-Za-z0-9_\']+)',src))
claims=json.load(open('/verif/tools/claims.json'))
used=set()
out=[]
for c in claims:
    for t in c["theorems"]:
        if t not in names: print("MISSING",t)
        used.add(t)
    out.append({"property":c["property"],"status":c["status"],"theorems":["Kzg.Props."+t for t in c["theorems"]],"note":c["note"]})
print("unclaimed:",sorted(names-used))
json.dump({"claims":out},open('/verif/MANIFEST.json','w'),indent=1)
props=[json.loads(l)["id"] for l in open('/verif/properties.jsonl')]
print("without claim:",[p for p in props if p not in [c["property"] for c in claims]])
