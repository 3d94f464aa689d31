"""Which functions of /repo are cited by a comment in lean/Verif/Model (file:from-to)? Prints a table."""
import re,glob,os,sys
cites={}
for f in glob.glob('lean/Verif/Model/*.lean')+glob.glob('lean/Verif/Util/*.lean'):
    txt=open(f).read()
    # drop Lean comments structure, find path:lines lists
    for m in re.finditer(r'((?:src|py/src|examples)/[\w/]+\.rs):((?:\d+(?:-\d+)?)(?:,\s*\d+(?:-\d+)?)*)',txt):
        for r in re.split(r',\s*',m.group(2)):
            a=r.split('-'); lo=int(a[0]); hi=int(a[-1])
            cites.setdefault(m.group(1),[]).append((lo,hi,os.path.basename(f)[:-5]))
def fns(path):
    L=open('/repo/'+path).read().split('\n')
    out=[];i=0
    comment=False
    ctx=''
    for i,l in enumerate(L):
        if '#[cfg(test)]' in l and '{' in L[i+1]: break
        if l.strip()=='/*': comment=True
        if l.strip()=='*/': comment=False
        if comment: continue
        m=re.match(r'\s*(?:unsafe )?impl.*',l)
        if m: ctx=l.strip().rstrip('{').strip()
        if re.match(r'\}',l): ctx=''
        m=re.match(r'\s*(?:pub(?:\([^)]*\))? )?(?:const )?(?:unsafe )?(?:extern "C" )?(?:fn|def) (\w+)',l)
        if m and not l.strip().startswith('//'):
            d=0;j=i;seen=False
            while j<len(L):
                d+=L[j].count('{')-L[j].count('}')
                if '{' in L[j]: seen=True
                if seen and d<=0: break
                if not seen and L[j].rstrip().endswith(';'): break
                j+=1
            out.append((m.group(1),i+1,j+1,ctx))
    return out
tot=cov=0
for path in sorted(glob.glob('/repo/src/**/*.rs',recursive=True)+glob.glob('/repo/py/src/**/*.rs',recursive=True)):
    p=path[len('/repo/'):]
    if 'test' in p: continue
    for n,a,b,ctx in fns(p):
        tot+=1
        c=sorted({m for lo,hi,m in cites.get(p,[]) if lo<=b and hi>=a})
        if c: cov+=1
        if not c or '-v' in sys.argv: print(f"{p}:{a}-{b} {n} [{ctx[:60]}] {','.join(c)}")
print(cov,'of',tot)
