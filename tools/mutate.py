#!/usr/bin/env python3
"""Run mutants of the model in a scratch copy (/tmp/mut) and append results to seeded/LOG.jsonl.
usage: mutate.py mutants.json   -- list of {file, def, old, new, claim, property}"""
import json,sys,os,re,subprocess,shutil,glob,time
SRC='/verif/lean'; DST='/tmp/mut/lean'; LOG='/verif/seeded/LOG.jsonl'
def sync():
    os.makedirs('/tmp/mut',exist_ok=True)
    subprocess.run(['rsync','-a','--delete',SRC+'/',DST+'/'],check=False) if shutil.which('rsync') else (shutil.rmtree(DST,ignore_errors=True),subprocess.run(['cp','-a',SRC,DST],check=True))
def decls(path):
    out=[];
    for i,l in enumerate(open(path),1):
        m=re.match(r'(?:@\[[^\]]*\]\s*)?(?:private |protected |noncomputable )*(theorem|lemma|def|example|instance|structure|inductive|abbrev)\s*(\S+)?',l)
        if m: out.append((i,m.group(1),(m.group(2) or '') if m.group(1)!='example' else f'example@{i}'))
    return out
def enclosing(path,line):
    r=('?','?')
    for i,k,n in decls(path):
        if i<=line: r=(k,n)
    return r
def reach(mod,root):
    imp={}
    for f in glob.glob(root+'/Verif/**/*.lean',recursive=True):
        imp[f]=set(re.findall(r'^import (Verif\.\S+)',open(f).read(),re.M))
    nm=lambda f: os.path.relpath(f,root)[:-5].replace('/','.')
    s={mod}; ch=True
    while ch:
        ch=False
        for f,v in imp.items():
            if nm(f) not in s and v&s: s.add(nm(f)); ch=True
    return {f for f in imp if nm(f) in s}
def closure(names,root,mod):
    ok=reach(mod,root)
    """property theorems that textually depend on the failed declarations"""
    bodies={}
    for f in sorted(ok):
        if '/Model/' in f: continue
        ls=open(f).read().split('\n'); ds=decls(f)+[(len(ls)+1,'','')]
        for (a,k,n),(b,_,_) in zip(ds,ds[1:]):
            if k in('theorem','lemma','def'): bodies[(f,n)]=' '.join(ls[a-1:b-1])
    toks={k:set(re.findall(r"[A-Za-z_][A-Za-z0-9_'.]*",v)) for k,v in bodies.items()}
    bad=set(names); ch=True
    while ch:
        ch=False
        for (f,n),t in toks.items():
            if n in bad: continue
            short={y for x in t for y in x.split('.')}
            if any(b in t or b.split('.')[-1] in short for b in bad): bad.add(n); ch=True
    return sorted(n for n in bad if re.match(r'C\d\d',n))
def main():
    muts=json.load(open(sys.argv[1])); sync()
    done=set()
    if os.path.exists(LOG):
        for l in open(LOG):
            d=json.loads(l); done.add((d['definition'],d['edit']))
    for m in muts:
        edit=f"{m['old']}  ==>  {m['new']}"
        name=f"{m['file']}:{m['def']}"
        if (name,edit) in done: continue
        p=f"{DST}/Verif/Model/{m['file']}.lean"; s=open(p).read()
        if s.count(m['old'])<1: print('NOT FOUND',name,m['old']); continue
        # apply inside the definition
        k=re.search(r'(?:def|structure|inductive) '+re.escape(m['def'])+r'\b',s)
        if not k: print('NO DEF',name); continue
        i=s.find(m['old'],k.start())
        if i<0: print('NOT FOUND after def',name); continue
        open(p,'w').write(s[:i]+m['new']+s[i+len(m['old']):])
        t=time.time()
        try:
            r=subprocess.run(['lake','build'],cwd=DST,capture_output=True,text=True,timeout=2400); out=r.stdout+r.stderr
        except subprocess.TimeoutExpired: print('TIMEOUT',name,flush=True); open(p,'w').write(s); continue
        open(p,'w').write(s)
        if r.returncode!=0 and not re.search(r'error: Verif/\S+?\.lean:\d+:\d+',out): print('CRASH',name,edit[:80],[l for l in out.splitlines() if 'error' in l.lower() or 'exited' in l][:4],flush=True); continue
        errs=re.findall(r'error: (Verif/\S+?\.lean):(\d+):\d+',out)
        direct=sorted({enclosing(DST+'/'+f,int(l)) for f,l in errs})
        modelbroken=[f for f,_ in errs if '/Model/' in f]
        thms=closure([n for _,n in direct],DST,'Verif.Model.'+m['file'])
        rec={'definition':name,'edit':edit,'claim':f"{m['property']}: {m['claim']}",
             'theorems_failed':thms,'failed_directly':[n for _,n in direct],'theorems_tightened':m.get('tightened',[]),
             'killed':bool(thms)}
        if modelbroken: rec['note']='edit does not type-check in the model'
        want=m['property'].split(',')[0].strip()
        hit=any(x.startswith(want+'_') for x in thms)
        print(name,m['property'],'KILLED' if hit else ('other' if thms else 'SURVIVED'),len(thms),[n for _,n in direct][:6],f'{time.time()-t:.0f}s','MODEL' if modelbroken else '',flush=True)
        if hit and not modelbroken:
            open(LOG,'a').write(json.dumps(rec,ensure_ascii=False)+'\n')
        else:
            open('/tmp/mut/pending.jsonl','a').write(json.dumps(rec,ensure_ascii=False)+'\n')
if __name__=="__main__": main()
