#!/usr/bin/env python3
"""Generates MANIFEST.json: collects theorem names Cnn_* from lean/Verif/Props/*.lean; status/notes from the table."""
import re,glob,json,os
root=os.path.join(os.path.dirname(__file__),'..')
ths={}
for f in sorted(glob.glob(root+'/lean/Verif/Props/*.lean')):
    ns=[]
    for line in open(f):
        m=re.match(r'namespace (\S+)',line)
        if m: ns.append(m.group(1))
        m=re.match(r'end (\S+)',line)
        if m and ns and ns[-1]==m.group(1): ns.pop()
        m=re.match(r'(?:omit .* in )?theorem ((C\d\d\d?)_\S+)',line)
        if m: ths.setdefault(m.group(2),[]).append('.'.join(ns+[m.group(1)]))
notes=json.load(open(root+'/tools/notes.json'))
claims=[]
for l in open(root+'/properties.jsonl'):
    pid=json.loads(l)['id']
    t=ths.get(pid,[])
    n=notes.get(pid,'')
    status='partial' if any(x.endswith('_partial') or x.endswith('_refuted') for x in t) else 'proved'
    if not t:
        if pid not in notes: continue
        status='partial'
    if isinstance(n,list): status,n=n
    claims.append({"property":pid,"status":status,"theorems":t,"note":n})
json.dump({"claims":claims},open(root+'/MANIFEST.json','w'),indent=1)
print(len(claims),'claims',sum(len(c['theorems']) for c in claims),'theorems')
