"""Writes DESIGN.md from the two text parts and the claims."""
import json
m={c['property']:c for c in json.load(open('/verif/MANIFEST.json'))['claims']}
out=open('/verif/tools/design_head.md').read()
out+='| id | title | status | theorems | remarks |\n| --- | --- | --- | --- | --- |\n'
for l in open('/verif/properties.jsonl'):
    d=json.loads(l); c=m.get(d['id'])
    if c: out+='| %s | %s | %s | %s | %s |\n'%(d['id'],d['title'],c['status'],', '.join('`%s`'%t.split('.')[-1] for t in c['theorems']),c.get('note','').replace('|','/'))
out+=open('/verif/tools/design_tail.md').read()
open('/verif/DESIGN.md','w').write(out)
