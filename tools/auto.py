#!/usr/bin/env python3
"""auto.py worker_id nworkers : automatic mutants, random order, stops at first error"""
import json,sys,os,re,subprocess,glob,time,random,signal
W=int(sys.argv[1]); NW=int(sys.argv[2]); only=sys.argv[3].split(',') if len(sys.argv)>3 else None
SRC='/verif/lean'; DST=f'/tmp/auto/w{W}'
RES=f'/tmp/auto/res{W}.jsonl'

import shutil; shutil.rmtree(DST,ignore_errors=True); subprocess.run(['cp','-a',SRC,DST],check=True)
OPS=[
 (r' < ',' ≤ '),(r' ≤ ',' < '),(r' > ',' ≥ '),(r' ≥ ',' > '),
 (r' \+ ',' - '),(r' - ',' + '),(r' \* ',' + '),(r' && ',' || '),(r' \|\| ',' && '),(r' ∧ ',' ∨ '),(r' ∨ ',' ∧ '),
 (r'\btrue\b','false'),(r'\bfalse\b','true'),
 (r'\bif (?!let)(.+?) then ',r'if ¬(\1) then '),
 (r'(?<=[\w\)])\.1\b','.2'),(r'(?<=[\w\)])\.2\b','.1'),
 (r'\.W\b','.E'),(r'\.E\b','.W'),(r'\.N\b','.S'),(r'\.S\b','.N'),(r'\.X\b','.Y'),(r'\.Y\b','.X'),
 (r'\.reverse\b',''),(r' ≠ ',' = '),(r' == ',' != '),(r' != ',' == '),
 (r'"([^"]+)"',r'"\1x"'),
 (r'\bmax\b','min'),(r'\bmin\b','max'),
 (r'\.width\b','.height'),(r'\.height\b','.width'),
 (r'\.isSome\b','.isNone'),(r'\.isNone\b','.isSome'),
 (r'\bsome (\w+)\b(?= *$)','none'),
 (r' / ',' * '),(r' % ',' / '),(r'\.head\?','.getLast?'),(r'\.getLast\?','.head?'),
]
NUM=re.compile(r'(?<![\w.?])(\d+)(?![\w.])')
def gen(f):
    s=open(f).read()
    # blank comments
    def blank(m): return re.sub(r'[^\n]',' ',m.group(0))
    c=re.sub(r'/-.*?-/',blank,s,flags=re.S); c=re.sub(r'--[^\n]*',blank,c)
    out=[]
    heads=[(m.start(),m.group(1)) for m in re.finditer(r'^(?:@\[[^\]]*\]\s*)?(?:private |noncomputable )*(?:def|abbrev|structure|inductive) (\S+)',c,re.M)]
    heads.append((len(c),''))
    pos=0
    for (a,n),(b,_) in zip(heads,heads[1:]):
        body=c[a:b]
        k=re.search(r':=|\n\s*\|',body)
        start=a+(k.start() if k else 0)
        # stop at next non-def top-level command
        e=re.search(r'\n(?=(instance|theorem|end |namespace|open |variable|section|/-|example))',c[start:b])
        end=start+e.start() if e else b
        seg=c[start:end]
        for pat,rep in OPS:
            for m in re.finditer(pat,seg):
                new=m.expand(rep)
                out.append((n,start+m.start(),m.group(0),new))
        for m in NUM.finditer(seg):
            v=int(m.group(1))
            out.append((n,start+m.start(),m.group(0),str(v+1)))
            if v>0: out.append((n,start+m.start(),m.group(0),str(v-1)))
    return s,out
allm=[]
for f in sorted(glob.glob(SRC+'/Verif/Model/*.lean')):
    b=os.path.basename(f)[:-5]
    if only and b not in only: continue
    s,o=gen(f)
    for x in o: allm.append((b,)+x)
random.Random(7).shuffle(allm)
files=sorted({x[0] for x in allm})
cnt={}; passes={}
for x in allm:
    k=(x[0],x[1]); cnt[k]=cnt.get(k,0)+1
    passes.setdefault((cnt[k]-1)//3,[]).append(x)
mine=[]
for k in sorted(passes):
    mine+=sorted([x for x in passes[k] if files.index(x[0])%NW==W],key=lambda x:x[0])
print(len(allm),len(mine),flush=True)
done=set()
for r in glob.glob('/tmp/auto/res*.jsonl'):
    for l in open(r):
        d=json.loads(l); done.add((d['file'],d['def'],d['line'],d['old'],d['new']))
env=dict(os.environ,LEAN_NUM_THREADS='1')
per={}
for b,n,pos,old,new in mine:
    src=f'{SRC}/Verif/Model/{b}.lean'; p=f'{DST}/Verif/Model/{b}.lean'
    s=open(p).read()
    if s[pos:pos+len(old)]!=old: print('SHIFT',b,n); continue
    line=s[s.rfind('\n',0,pos)+1: s.find('\n',pos)]
    key=(b,n,line.strip(),old,new)
    if key in done: continue
    open(p,'w').write(s[:pos]+new+s[pos+len(old):])
    newline=line[:pos-(s.rfind('\n',0,pos)+1)]+new+line[pos-(s.rfind('\n',0,pos)+1)+len(old):]
    t=time.time()
    pr=subprocess.Popen(['lake','build'],cwd=DST,stdout=subprocess.PIPE,stderr=subprocess.STDOUT,text=True,env=env,start_new_session=True)
    err=''
    for l in pr.stdout:
        m=re.match(r'error: (Verif/\S+?\.lean):(\d+):\d+',l)
        if m: err=f'{m.group(1)}:{m.group(2)}'; break
        if 'deterministic' in l or 'error' in l.lower() and 'error: ' in l: err=l.strip()[:200]; break
    try: os.killpg(pr.pid,signal.SIGKILL)
    except Exception: pass
    pr.wait()
    open(p,'w').write(s)
    st='MODEL' if '/Model/' in err else ('KILLED' if err else 'SURVIVED')
    rec=dict(file=b,line=line.strip(),newline=newline.strip(),old=old,new=new,status=st,err=err,secs=round(time.time()-t))
    rec['def']=n
    open(RES,'a').write(json.dumps(rec,ensure_ascii=False)+'\n')
    if st=='SURVIVED': print(b,n,'|',line.strip(),'==>',newline.strip(),rec['secs'],flush=True)
