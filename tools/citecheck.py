"""Checks that citations 'path:from-to `name`' in the model point at lines that contain the named function."""
import re,glob,sys
sys.argv=['x']
exec(open('tools/coverage.py').read().split('tot=cov=0')[0])
bad=0
cache={}
for f in sorted(glob.glob('lean/Verif/**/*.lean',recursive=True)):
    txt=open(f).read()
    for m in re.finditer(r'((?:src|py/src)/[\w/]+\.rs):(\d+)(?:-(\d+))?\s+`([A-Za-z_:]+)`',txt):
        p,lo,hi,name=m.group(1),int(m.group(2)),int(m.group(3) or m.group(2)),m.group(4).split('::')[-1]
        if p not in cache: cache[p]=fns(p)
        ds=[(a,b) for n,a,b,_ in cache[p] if n==name]
        if not ds: continue
        if not any(lo<=b and hi>=a for a,b in ds):
            print(f.split('Verif/')[1],p,lo,hi,name,ds); bad+=1
        elif not any(abs(lo-a)<=8 and hi<=b+2 or (a<=lo and hi<=b+1) for a,b in ds):
            print('~',f.split('Verif/')[1],p,lo,hi,name,ds)
print(bad)
