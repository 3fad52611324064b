"""Turn the results of the mutation runs (directory argv[1]: muts*.json, out/<id>.json) into seeded/LOG.jsonl."""
import json,sys,os,glob
base=sys.argv[1]
tight=json.load(open('/verif/tools/tightened.json')) if os.path.exists('/verif/tools/tightened.json') else {}
out=[];n=0
for mf in sorted(glob.glob(base+'/muts*.json')):
    for mid,m in json.load(open(mf)).items():
        f=f"{base}/out/{mid}.json"
        if not os.path.exists(f): continue
        r=json.load(open(f))
        n+=1
        cl=m['claims'] if isinstance(m['claims'],list) else m['claims'].split()
        t=tight.get(mid,{})
        br=[x.replace('Conch.','') for x in r['broken']]
        mine=[x for x in br if x[:3] in cl]; oth=[x for x in br if x[:3] not in cl]
        e={"id":mid,"definition":m['defn'],"edit":m['edit'],"claim_broken":cl,"why":m['why'],
           "theorems_failed":mine,"other_theorems_failed":oth,"first_failures":r['failed'][:8],
           "surviving_theorems_of_the_claim":[x.replace('Conch.','') for x in r['ok'] if x.replace('Conch.','')[:3] in cl],
           "theorems_tightened":t.get('tightened',[])}
        if 'note' in t: e['note']=t['note']
        out.append(e)
open('/verif/seeded/LOG.jsonl','w').write(''.join(json.dumps(e,ensure_ascii=False)+'\n' for e in out))
print(n)
