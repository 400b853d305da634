import json,sys
# reads a json list of [id,title,statement,quantifier,why,anchors,status,note]
L=json.load(open(sys.argv[1]))
ps=[json.loads(l) for l in open('/verif/properties.jsonl')]
ids={p['id']:i for i,p in enumerate(ps)}
n=json.load(open('/verif/tools/notes.json'))
for (i,t,s,q,w,a,st,note) in L:
    d=dict(id=i,title=t,statement=s,quantifier=q,why_tests_cant=w,anchors=a)
    if i in ids: ps[ids[i]]=d
    else: ps.append(d)
    n[i]=dict(status=st,note=note)
ps.sort(key=lambda p:p['id'])
open('/verif/properties.jsonl','w').write(''.join(json.dumps(p,ensure_ascii=False)+'\n' for p in ps))
json.dump(n,open('/verif/tools/notes.json','w'),indent=1,ensure_ascii=False)
