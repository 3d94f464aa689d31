#!/usr/bin/env python3
"""Seeds bugs into a scratch copy of the model and rebuilds.
usage: tools/mutate.py MUTATIONS.py [name ...]
MUTATIONS.py defines M = [(name, file under lean/Verif, definition, old text, new text, claim it breaks)].
One line per attempt is appended to seeded/LOG.jsonl."""
import sys,os,re,json,subprocess,shutil
root=os.path.dirname(os.path.abspath(__file__))+"/.."
scratch="/tmp/mut"
# the sources are copied from this snapshot (default: the working copy)
src=os.environ.get("MUT_SRC",root+"/lean")
ns={}; exec(open(sys.argv[1]).read(),ns)
want=set(sys.argv[2:])
log=os.path.join(root,"seeded/LOG.jsonl")
done=set()
if os.path.exists(log):
    for l in open(log): done.add(json.loads(l).get("name"))
def enclosing(path,line):
    name=None
    for i,l in enumerate(open(path),1):
        if i>line: break
        m=re.match(r"(?:private |protected |noncomputable )*(theorem|lemma|def|instance|example|structure|inductive|abbrev)\s*([^\s:({\[]*)",l)
        if m: name=(m.group(2) or m.group(1)); ln=i
    return name
def thms(path):
    return re.findall(r"^theorem (C\d\d_\w+)",open(path).read(),re.M)
for (name,f,defn,old,new,claim) in ns["M"]:
    if (want and name not in want) or (not want and name in done): continue
    shutil.rmtree(scratch,ignore_errors=True)
    shutil.copytree(src,scratch,copy_function=shutil.copy2)
    p=f"{scratch}/Verif/{f}"
    s=open(p).read()
    if s.count(old)!=1:
        print("SKIP",name,"occurrences:",s.count(old)); continue
    open(p,"w").write(s.replace(old,new))
    r=subprocess.run("nice lake build 2>&1",shell=True,cwd=scratch,capture_output=True,text=True).stdout
    failed=[];mods=set()
    if "error: Verif/" not in r and "Build completed successfully" not in r:
        print("NO VERDICT",name,r[-500:]); continue
    for m in re.finditer(r"error: (Verif/[\w/]+\.lean):(\d+):",r):
        t=enclosing(f"{scratch}/{m.group(1)}",int(m.group(2)))
        mods.add(m.group(1))
        if t not in failed: failed.append(t)
    # property theorems that are no longer available: those in modules that import a failed one
    imports={}
    for d,_,fs in os.walk(scratch+"/Verif"):
        for x in fs:
            if x.endswith(".lean"):
                rel=os.path.relpath(os.path.join(d,x),scratch)
                imports[rel]=[i.replace(".","/")+".lean" for i in re.findall(r"^import (Verif[\w.]+)",open(os.path.join(d,x)).read(),re.M)]
    blocked=set(mods)
    ch=True
    while ch:
        ch=False
        for k,v in imports.items():
            if k not in blocked and any(i in blocked for i in v): blocked.add(k); ch=True
    lost=[]
    for k in sorted(blocked):
        if "/Props/" in k and k not in mods: lost+=thms(f"{scratch}/{k}")
    e=dict(name=name,definition=defn,file="lean/Verif/"+f,edit={"from":old,"to":new},claim_broken=claim,
           failed=failed,not_rebuilt=sorted(set(lost)),survived=(not failed),tightened=[])
    open(log,"a").write(json.dumps(e,ensure_ascii=False)+"\n")
    print(name,"SURVIVED" if not failed else "failed: "+", ".join(map(str,failed))[:200],flush=True)
