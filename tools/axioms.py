#!/usr/bin/env python3
"""Regenerates /verif/AXIOMS.md: the axioms every theorem named in MANIFEST.json depends on (run after `lake build`)."""
import json,subprocess,re,os,tempfile,collections
M=json.load(open('/verif/MANIFEST.json'))['claims']
ths=[(c['property'],t) for c in M for t in c['theorems']]
src="import Verif\n"+"".join(f"#print axioms {t}\n" for _,t in ths)
f=tempfile.NamedTemporaryFile('w',suffix='.lean',delete=False); f.write(src); f.close()
out=subprocess.run(['lake','env','lean',f.name],cwd='/verif/lean',capture_output=True,text=True).stdout
os.unlink(f.name)
out=re.sub(r'\n\s+',' ',out)
ax={}
for l in out.splitlines():
    m=re.search(r"'([^']+)' depends on axioms: \[(.*)\]",l)
    if m: ax[m.group(1)]=tuple(sorted(x.strip() for x in m.group(2).split(',')))
    m=re.search(r"'([^']+)' does not depend on any axioms",l)
    if m: ax[m.group(1)]=()
groups=collections.OrderedDict()
for p,t in ths:
    groups.setdefault(ax.get(t,('UNKNOWN',)),[]).append(t)
w=open('/verif/AXIOMS.md','w')
w.write("# Axioms of the property theorems\n\nGenerated by tools/axioms.py from `#print axioms`.\n")
for k in sorted(groups,key=lambda k:(len(k),k)):
    w.write("\n## "+(", ".join(k) if k else "no axioms")+f" ({len(groups[k])})\n\n")
    w.write(", ".join(groups[k])+"\n")
w.close()
print({k:len(v) for k,v in groups.items()})
