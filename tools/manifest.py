#!/usr/bin/env python3
"""Regenerates MANIFEST.json from the theorem names in lean/Verif/Props and the notes below."""
import json,re,glob
NOTES={}
OVERRIDE={}
exec(open('/verif/tools/notes.py').read())
thms={}
for f in sorted(glob.glob('/verif/lean/Verif/Props/*.lean')):
    ns=[]
    for l in open(f):
        m=re.match(r'namespace (\S+)',l)
        if m: ns.append(m.group(1))
        m=re.match(r'end (\S+)',l)
        if m and ns and ns[-1]==m.group(1): ns.pop()
        m=re.match(r'theorem ((C\d\d+)_\w+)',l)
        if m: thms.setdefault(m.group(2),[]).append('.'.join(ns+[m.group(1)]))
claims=[]
missing=[]
for l in open('/verif/properties.jsonl'):
    p=json.loads(l)['id']
    if p in thms:
        st=OVERRIDE.get(p) or ('partial' if any(t.endswith('_partial') for t in thms[p]) else 'proved')
        claims.append({"property":p,"status":st,"theorems":thms[p],"note":NOTES.get(p) or "Full statement; simplifications as said in the comments of the model and in DESIGN.md."})
    elif OVERRIDE.get(p)=='not_applicable':
        claims.append({"property":p,"status":'not_applicable',"theorems":[],"note":NOTES.get(p,"")})
    else: missing.append(p)
json.dump({"claims":claims},open('/verif/MANIFEST.json','w'),indent=1,ensure_ascii=False)
print(len(claims),'claims; missing',missing)
print('unknown',[t for t in thms if t not in [c['property'] for c in claims]])
