#!/usr/bin/env python3
"""Replaces the last section of DESIGN.md ("## Axioms") by the axioms that the theorems of MANIFEST.json depend on.
Needs a finished `lake build`; the file with the commands is written to a temporary directory."""
import json,re,os,subprocess,tempfile,collections
root=os.path.dirname(os.path.abspath(__file__))
ts=[t for c in json.load(open(root+'/MANIFEST.json'))['claims'] for t in c['theorems']]
with tempfile.TemporaryDirectory() as d:
    f=d+'/A.lean'
    open(f,'w').write('import Verif\n'+''.join('#print axioms %s\n'%t for t in ts))
    out=subprocess.run(['lake','env','lean',f],cwd=root+'/lean',capture_output=True,text=True).stdout
ax={}
for m in re.finditer(r"'([^']+(?:'*))' (does not depend on any axioms|depends on axioms: \[([^\]]*)\])",out):
    ax[m.group(1)]=tuple(sorted(x.strip() for x in (m.group(3) or '').replace('\n',' ').split(',') if x.strip()))
assert len(ax)==len(set(ts)),(len(ax),len(ts),[t for t in ts if t not in ax][:5])
g=collections.defaultdict(list)
for t in ts: g[ax[t]].append(t.removeprefix('Necessist.'))
s=open(root+'/DESIGN.md').read().split('\n## Axioms\n')[0]
s+='\n## Axioms\n\nOutput of `#print axioms` for every theorem of MANIFEST.json (the prefix `Necessist.` is left out), by `gen_axioms.py`.\n'
for k in sorted(g,key=lambda k:(len(k),k)):
    s+='\n**%s** (%d): '%(', '.join('`%s`'%x for x in k) or 'none',len(g[k]))+', '.join('`%s`'%t for t in g[k])+'\n'
open(root+'/DESIGN.md','w').write(s)
print({k:len(v) for k,v in g.items()})
