#!/usr/bin/env python3
"""Mechanical mutation testing. usage: tools/automut.py SEED COUNT OUT.jsonl
Picks COUNT random small edits (comparison, constant, connective, branch, dropped constructor) of definitions in lean/Verif/Model,
applies each to a scratch copy of MUT_SRC (a built snapshot of lean/), rebuilds and stops at the first error outside Model.
An edit that does not compile in Model itself is skipped. One JSON line per verdict is appended to OUT."""
import sys,os,re,json,subprocess,shutil,random,glob,signal
src=os.environ.get("MUT_SRC","/verif/lean"); scratch=os.environ.get("MUT_TMP","/tmp/automut")
seed,count,out=int(sys.argv[1]),int(sys.argv[2]),sys.argv[3]
OPS=[(r' < ',' ≤ '),(r' ≤ ',' < '),(r' > ',' ≥ '),(r' ≥ ',' > '),(r' == ',' != '),(r' != ',' == '),(r' = (?=[^>])(?!>)',' ≠ '),(r' ≠ ',' = '),
 (r' && ',' || '),(r' \|\| ',' && '),(r' ∧ ',' ∨ '),(r' ∨ ',' ∧ '),(r' \+ 1\b',''),(r' - 1\b',''),(r' \+ 1\b',' + 2'),(r'\b0\b','1'),(r'\b1\b','0'),(r'\b1\b','2'),
 (r'\btrue\b','false'),(r'\bfalse\b','true'),(r'\.take ','.drop '),(r'\.drop ','.take '),(r'\bmin\b','max'),(r'\bmax\b','min'),
 (r'\.tail\b',''),(r'\.reverse\b',''),(r'\.head\?','.getLast?'),(r'\.getLast\?','.head?'),(r'\bsome \[\]','none'),(r'\bif ','if ¬ '),
 (r'\.dropLast\b',''),(r' \+ ',' - '),(r' - ',' + '),(r' \* ',' + '),(r' / ',' * '),(r' % ',' / ')]
def defs(path):
    L=open(path).read().split('\n'); cur=None; blocks=[]; com=False
    for i,l in enumerate(L):
        if com:
            if '-/' in l: com=False
            continue
        if l.lstrip().startswith('/-'):
            if '-/' not in l: com=True
            continue
        m=re.match(r'(?:private |protected |noncomputable |@\[[^\]]*\] )*(def|abbrev|inductive|instance)\s*([^\s:({\[]*)',l)
        if m: cur=m.group(2) or 'instance'
        elif re.match(r'(theorem|lemma|structure|class|namespace|end|section|open|variable|import|deriving|attribute|example)\b',l): cur=None
        if cur and l.strip() and not l.lstrip().startswith('--'): blocks.append((cur,i,bool(m),l))
    return L,blocks
cands=[]
for f in sorted(glob.glob(src+'/Verif/Model/*.lean')):
    L,bl=defs(f)
    for name,i,first,l in bl:
        body=l
        off=0
        if first and ':=' in l: off=l.index(':=')+2
        elif first: continue
        code=l.split(' -- ')[0]
        for pat,new in OPS:
            for m in re.finditer(pat,code):
                if m.start()<off: continue
                if pat.startswith(' = ') and (':=' in code[max(0,m.start()-1):m.end()+1] or 'let ' in code[:m.start()] ): continue
                cands.append((f,name,i,l,code[:m.start()]+new+code[m.end():]))
print(len(cands),'candidates',flush=True)
done=set()
for o in glob.glob(os.path.join(os.path.dirname(out) or '.','*.jsonl')):
    for x in open(o):
        d=json.loads(x)
        if 'line' in d: done.add((d['file'],d['line'],d['to']))
random.seed(seed); random.shuffle(cands)
n=0
for f,name,i,old,new in cands:
    if n>=count: break
    rel=os.path.relpath(f,src)
    if (rel,i+1,new) in done or new==old: continue
    shutil.rmtree(scratch,ignore_errors=True); shutil.copytree(src,scratch,copy_function=shutil.copy2)
    p=os.path.join(scratch,rel); L=open(p).read().split('\n'); assert L[i]==old; L[i]=new; open(p,'w').write('\n'.join(L))
    pr=subprocess.Popen("nice lake build 2>&1",shell=True,cwd=scratch,stdout=subprocess.PIPE,text=True,start_new_session=True)
    err=None; ok=False
    for l in pr.stdout:
        m=re.match(r"error: (Verif/[\w/]+\.lean):(\d+):",l)
        if m: err=m.groups(); break
        if 'Build completed successfully' in l: ok=True
    try: os.killpg(pr.pid,signal.SIGKILL)
    except ProcessLookupError: pass
    pr.wait()
    if err and '/Model/' in err[0]: continue
    if not err and not ok: continue
    n+=1
    t=None
    if err:
        for j,l in enumerate(open(os.path.join(scratch,err[0])),1):
            if j>int(err[1]): break
            m=re.match(r"(?:private |protected |noncomputable )*(theorem|lemma|def|instance|example|structure|inductive|abbrev)\s*([^\s:({\[]*)",l)
            if m: t=m.group(2) or m.group(1)
    open(out,'a').write(json.dumps(dict(file=rel,line=i+1,definition=name,**{'from':old,'to':new},survived=err is None,failed=[f'{err[0]}:{t}'] if err else []),ensure_ascii=False)+'\n')
    if not err: print('SURVIVED',rel,i+1,name,'|',new.strip(),flush=True)
print('done',n)
