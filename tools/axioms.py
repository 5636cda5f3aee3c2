#!/usr/bin/env python3
"""Writes AXIOMS.md: the axioms every theorem named in MANIFEST.json depends on (`#print axioms`).
Run after `lake build`."""
import json,subprocess,os,re,collections
here=os.path.dirname(os.path.abspath(__file__)); root=os.path.join(here,'..')
M=json.load(open(os.path.join(root,'MANIFEST.json')))
names=[]
for c in M['claims']:
    for t in c['theorems']:
        if t not in names: names.append(t)
src='import Verif\n'+'\n'.join(f'#print axioms {n}' for n in names)+'\n'
open('/tmp/axioms_query.lean','w').write(src)
r=subprocess.run(['lake','env','lean','/tmp/axioms_query.lean'],cwd=os.path.join(root,'lean'),capture_output=True,text=True)
out=r.stdout
got={}
for m in re.finditer(r"'([^']+)' (?:depends on axioms: \[([^\]]*)\]|does not depend on any axioms)",out):
    got[m.group(1)]=tuple(x.strip() for x in (m.group(2) or '').replace('\n',' ').split(',') if x.strip())
missing=[n for n in names if n not in got]
assert not missing,(missing,out[-2000:],r.stderr[-2000:])
allowed={'propext','Classical.choice','Quot.sound'}
assert all(set(v)<=allowed for v in got.values()),got
groups=collections.defaultdict(list)
for n in names: groups[tuple(sorted(got[n]))].append(n)
with open(os.path.join(root,'AXIOMS.md'),'w') as f:
    f.write('# Axioms of the theorems named in MANIFEST.json\n\nGenerated by `tools/axioms.py` with `#print axioms`. ')
    f.write('`propext`, `Classical.choice` and `Quot.sound` are the standard axioms of Lean; no other axiom occurs.\n')
    for g in sorted(groups,key=len):
        f.write(f'\n## {", ".join(g) if g else "no axioms"} ({len(groups[g])} theorems)\n\n')
        f.write(', '.join(f'`{n}`' for n in groups[g])+'\n')
print({k:len(v) for k,v in groups.items()})
