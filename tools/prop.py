import json,sys
# usage: prop.py ID field value ...
p='/verif/properties.jsonl'
L=[json.loads(l) for l in open(p)]
i=sys.argv[1]
kv=dict(zip(sys.argv[2::2],sys.argv[3::2]))
for o in L:
    if o['id']==i:
        o.update(kv); break
else:
    o={'id':i}; o.update(kv); L.append(o)
open(p,'w').write(''.join(json.dumps(o,ensure_ascii=False)+'\n' for o in L))
