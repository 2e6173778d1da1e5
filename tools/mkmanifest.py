#!/usr/bin/env python3
"""Collect theorems named Cnn_* from lean/Verif/Props and write MANIFEST.json (run from /verif)."""
import re,glob,json,os
STATUS=json.load(open('tools/status.json'))
ths={}
for f in sorted(glob.glob('lean/Verif/Props/*.lean')):
    ns=[]
    for l in open(f):
        m=re.match(r'namespace (\S+)',l)
        if m: ns.append(m.group(1))
        m=re.match(r'end (\S+)',l)
        if m and ns and ns[-1]==m.group(1): ns.pop()
        m=re.match(r'(?:@\[[^\]]*\] )?theorem (C(\d\d\d?)_\S+)',l)
        if m: ths.setdefault('C'+m.group(2),[]).append('.'.join(ns+[m.group(1)]))
props=[json.loads(l)['id'] for l in open('properties.jsonl')]
claims=[]
for p in props:
    if p not in ths:
        print('no theorem for',p); continue
    st=STATUS.get(p,{})
    claims.append({'property':p,'status':st.get('status','proved'),'theorems':ths[p],'note':st.get('note','')})
json.dump({'claims':claims},open('MANIFEST.json','w'),indent=1)
print(len(claims),'claims',sum(map(len,ths.values())),'theorems')
