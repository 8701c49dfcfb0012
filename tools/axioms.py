#!/usr/bin/env python3
"""Regenerate the axiom table at the end of DESIGN.md (between the markers) from `#print axioms`."""
import json, re, subprocess, collections
R='/verif'
m=json.load(open(R+'/MANIFEST.json'))
names=[t for c in m['claims'] for t in c['theorems']]
src='import Verif\n'+'\n'.join(f'#print axioms {n}' for n in names)+'\n'
open('/tmp/ax.lean','w').write(src)
out=subprocess.run(['lake','env','lean','/tmp/ax.lean'],cwd=R+'/lean',capture_output=True,text=True).stdout
out=re.sub(r'\n\s+',' ',out)
by=collections.defaultdict(list)
for l in out.splitlines():
    a=re.match(r"'(\S+)' depends on axioms: \[(.*)\]",l)
    b=re.match(r"'(\S+)' does not depend on any axioms",l)
    if a: by[a.group(2)].append(a.group(1))
    elif b: by['none'].append(b.group(1))
assert sum(map(len,by.values()))==len(names),(sum(map(len,by.values())),len(names))
tab='\n'.join(f"* axioms **{k}**: "+', '.join('`'+n.removeprefix('Jarl.')+'`' for n in v) for k,v in sorted(by.items()))
d=open(R+'/DESIGN.md').read()
a,b='<!-- axioms:begin -->','<!-- axioms:end -->'
d=d[:d.index(a)+len(a)]+'\n'+tab+'\n'+d[d.index(b):]
open(R+'/DESIGN.md','w').write(d)
print({k:len(v) for k,v in by.items()})
