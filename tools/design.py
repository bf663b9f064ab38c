#!/usr/bin/env python3
"""Regenerates /verif/DESIGN.md."""
import json,re,glob,os
HOW={}
exec(open('/verif/tools/how.py').read())
P=[json.loads(l) for l in open('/verif/properties.jsonl')]
M={c['property']:c for c in json.load(open('/verif/MANIFEST.json'))['claims']}
L='/verif/lean/Verif/'
def imps(f):
    return re.findall(r'^import (Verif\.\S+)',open(f).read(),re.M)
def models(f,seen=None):
    seen=set() if seen is None else seen
    for i in imps(f):
        if i in seen: continue
        seen.add(i)
        models('/verif/lean/'+i.replace('.','/')+'.lean',seen)
    return seen
where={}
for f in sorted(glob.glob(L+'Props/*.lean')):
    for m in re.finditer(r'^theorem (C\d\d+)_',open(f).read(),re.M):
        where.setdefault(m.group(1),[])
        b=os.path.basename(f)[:-5]
        if b not in where[m.group(1)]: where[m.group(1)].append(b)
out=open('/verif/tools/design_head.md').read()
out+="| id | property | Props file | modelled and proved how | status and limits |\n|---|---|---|---|---|\n"
for p in P:
    i=p['id'];c=M.get(i,{})
    out+=f"| {i} | {p['title']} | {', '.join(where.get(i,[]))} | {HOW.get(i,'')} | {c.get('status','')}. {c.get('note','')} |\n"
open('/verif/DESIGN.md','w').write(out)
print('no how:',[p['id'] for p in P if p['id'] not in HOW])
