#!/usr/bin/env python3
"""Write MANIFEST.json: collects theorems named Cnn_* from lean/Verif/Props, statuses from notes/status.json."""
import re, json, glob, os
root=os.path.dirname(os.path.dirname(os.path.abspath(__file__)))
status=json.load(open(root+'/notes/status.json'))
ths={}
for f in sorted(glob.glob(root+'/lean/Verif/Props/*.lean')):
    ns=[]
    incomment=0
    for line in open(f):
        m=re.match(r'namespace (\S+)',line)
        if m: ns.append(m.group(1)); continue
        m=re.match(r'end (\S+)',line)
        if m and ns and ns[-1]==m.group(1): ns.pop(); continue
        m=re.match(r'(?:protected )?theorem (C\d\d)(_\S+)',line)
        if m: ths.setdefault(m.group(1),[]).append('.'.join(ns+[m.group(1)+m.group(2)]))
props=[json.loads(l)['id'] for l in open(root+'/properties.jsonl')]
claims=[]
for p in props:
    st=status.get(p)
    t=ths.get(p,[])
    if st is None: st=["partial","not yet proved"] 
    claims.append({"property":p,"status":st[0],"theorems":t,"note":st[1]})
    if st[0]=='proved' and not t: print('WARN proved without theorems',p)
    if any(x.endswith('_partial') for x in t) and st[0]=='proved': print('WARN partial thm in proved',p)
json.dump({"claims":claims},open(root+'/MANIFEST.json','w'),indent=1)
print(sum(len(v) for v in ths.values()),'theorems;',{s:sum(c['status']==s for c in claims) for s in ('proved','partial','not_applicable')})
