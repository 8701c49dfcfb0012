#!/usr/bin/env python3
"""Writes MANIFEST.json. Edit CLAIMS below."""
import json
CLAIMS={}
def c(pid,status,theorems,note=""): CLAIMS[pid]=dict(property=pid,status=status,theorems=theorems.split(),note=note)
exec(open('/verif/tools/claims.py').read())
props=[json.loads(l)['id'] for l in open('/verif/properties.jsonl')]
out=[]
for p in props:
    if p in CLAIMS: out.append(CLAIMS[p])
    else: print('no claim for',p)
for k in CLAIMS:
    assert k in props,k
for x in out: x['theorems']=['Jarl.'+t for t in x['theorems']]
json.dump({"claims":out},open('/verif/MANIFEST.json','w'),indent=1)
