"""Turn a mutation harness result file into lines of seeded/LOG.jsonl.
usage: mut_log.py out.jsonl  (appends)"""
import json,sys
for l in open(sys.argv[1]):
    r=json.loads(l)
    d={"definition":r['file']+': '+r['defn'],"edit":r['old']+'  ==>  '+r['new'],"claim":r['claim'],
       "status":r['status'],"theorems_failed":[f.split(':',1)[0].replace('Verif/','')+':'+f.split(':',1)[1] for f in r.get('fails',[])],
       "theorems_tightened":r.get('tightened',[])}
    open('/verif/seeded/LOG.jsonl','a').write(json.dumps(d,ensure_ascii=False)+'\n')
