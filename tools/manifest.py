#!/usr/bin/env python3
"""Writes MANIFEST.json: theorem names are collected from Props files by their Cxx_ prefix; notes from tools/notes.json."""
import re,json,glob
notes=json.load(open('/verif/tools/notes.json'))
props=[json.loads(l) for l in open('/verif/properties.jsonl') if l.strip()]
th={}
for f in sorted(glob.glob('/verif/lean/Verif/Props/*.lean')):
    ns=[]
    for line in open(f):
        m=re.match(r'namespace\s+(\S+)',line)
        if m: ns.append(m.group(1))
        m=re.match(r'end\s+(\S+)',line)
        if m and ns and ns[-1]==m.group(1): ns.pop()
        m=re.match(r'(?:@\[[^\]]*\]\s*)?(?:protected\s+)?theorem\s+((C\d+)_\S+)',line)
        if m: th.setdefault(m.group(2),[]).append('.'.join(ns+[m.group(1)]))
claims=[]
for p in props:
    i=p['id']; n=notes.get(i,{})
    t=th.get(i,[])
    st=n.get('status')
    if st is None:
        st='partial' if (not t or any(x.endswith('_partial') for x in t)) else 'proved'
    if not t and st!='not_applicable': st='partial'
    claims.append(dict(property=i,status=st,theorems=t,note=n.get('note','' if t else 'not yet proved')))
json.dump({"claims":claims},open('/verif/MANIFEST.json','w'),indent=1)
print({s:sum(c['status']==s for c in claims) for s in ('proved','partial','not_applicable')}, 'no theorems:',[c['property'] for c in claims if not c['theorems']])
