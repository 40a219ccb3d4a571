#!/usr/bin/env python3
"""Writes MANIFEST.json from the theorem names in lean/Verif/Props: theorem Cnn_* belongs to property Cnn."""
import re,glob,json,os
root=os.path.join(os.path.dirname(os.path.abspath(__file__)),"..")
exec(open(os.path.join(root,"tools","notes.py")).read())   # STATUS, NOTES
thms={}
for f in sorted(glob.glob(root+"/lean/Verif/Props/**/*.lean",recursive=True)):
    ns=[]
    for line in open(f):
        m=re.match(r"namespace\s+(\S+)",line)
        if m: ns.append(m.group(1))
        m=re.match(r"end\s+(\S+)",line)
        if m and ns and ns[-1]==m.group(1): ns.pop()
        m=re.match(r"(?:@\[[^\]]*\]\s*)?theorem\s+((C\d+)\w*)",line)
        if m:
            thms.setdefault(m.group(2),[]).append(".".join(ns+[m.group(1)]))
props=[json.loads(l)["id"] for l in open(root+"/properties.jsonl")]
claims=[]
for p in props:
    if p in STATUS and p in thms or STATUS.get(p)=="not_applicable":
        claims.append(dict(property=p,status=STATUS[p],theorems=thms.get(p,[]),note=NOTES.get(p,"")))
    elif p in thms:
        print("no status:",p)
json.dump({"claims":claims},open(root+"/MANIFEST.json","w"),indent=1)
print(len(claims),"claims;", "missing:",[p for p in props if p not in [c["property"] for c in claims]])
