#!/usr/bin/env python3
"""Checks the citations of the model: every `file:lines` in a comment of lean/Verif/Model must name a
file of /repo and lines inside it, and every definition of the model must carry (or sit below, in a
section comment) a citation.  Usage: tools/citations.py [repo]"""
import re,sys,os,glob
repo=sys.argv[1] if len(sys.argv)>1 else '/repo'
root=os.path.join(os.path.dirname(os.path.abspath(__file__)),'..','lean','Verif','Model')
files={}
for d,_,fs in os.walk(repo):
    if '.git' in d: continue
    for f in fs:
        p=os.path.join(d,f)
        files.setdefault(f,[]).append(p)
def lines(p): return len(open(p,errors='replace').read().splitlines())
bad=0; cites=set(); ndef=0; nocite=[]
cre=re.compile(r'([\w/]+\.(?:hpp|cpp|toml|md|build))[:`]*\s*:?\s*((?:\d+(?:[-–]\d+)?)(?:\s*,\s*\d+(?:[-–]\d+)?)*)?')
for f in sorted(glob.glob(root+'/*.lean')):
    t=open(f).read()
    for m in cre.finditer(t):
        if m.group(1) in ('DESIGN.md','env.toml'): continue
        name,ls=m.group(1),m.group(2)
        cands=[p for p in files.get(os.path.basename(name),[]) if p.endswith('/'+name)]
        if not cands: print(os.path.basename(f),'no such file',m.group(0)); bad+=1; continue
        if ls:
            for r in re.split(r'\s*,\s*',ls):
                a=re.split('[-–]',r); a=[int(x) for x in a]
                cites.add((name,r))
                if not any(a[0]<=a[-1]<=lines(p) for p in cands):
                    print(os.path.basename(f),'bad range',m.group(0)); bad+=1
    # definitions with doc comments
    for m in re.finditer(r'^(?:@\[[^\]]*\]\s*)?(?:noncomputable\s+)?(?:private\s+)?(def|structure|inductive|abbrev|class)\s+(\S+)',t,re.M):
        ndef+=1
        pre=t[:m.start()].rstrip()
        ok=False
        if pre.endswith('-/'):
            c=pre[pre.rfind('/-'):]
            ok=bool(re.search(r'\.(hpp|cpp)|lines? \d|:\d+',c)) 
            if not ok: nocite.append((os.path.basename(f),m.group(2),'comment: '+c[:100].replace('\n',' ')))
        else: nocite.append((os.path.basename(f),m.group(2),'no comment'))
for x in nocite: print(*x)
print(f'{len(cites)} distinct citations, {bad} bad; {ndef} definitions, {len(nocite)} without citation')
sys.exit(1 if bad or nocite else 0)
