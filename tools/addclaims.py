"""addclaims.py <module> <json {prop: [status, note]}>: claims from the theorem names of a Props file."""
import json,re,sys
mod,new=sys.argv[1],json.loads(sys.argv[2])
path='/verif/tools/claims.json'
c=json.load(open(path))
names=re.findall(r'^theorem (C\d\d\w*?_\w+)',open(f'/verif/lean/Verif/Props/{mod}.lean').read(),re.M)
for k,(st,note) in new.items():
    c=[x for x in c if x['property']!=k]
    c.append({"property":k,"status":st,"theorems":[n for n in names if n.startswith(k+'_')],"note":note})
c.sort(key=lambda x:int(x['property'][1:]))
json.dump(c,open(path,'w'),indent=1)
