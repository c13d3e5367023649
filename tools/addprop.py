import json,sys
# usage: addprop.py < json-lines; replaces or appends
L=[json.loads(l) for l in open('/verif/properties.jsonl')]
for l in sys.stdin:
    if l.strip():
        d=json.loads(l)
        L=[x for x in L if x['id']!=d['id']]+[d]
L.sort(key=lambda d:int(d['id'][1:]))
open('/verif/properties.jsonl','w').write("".join(json.dumps(d)+"\n" for d in L))
