#!/usr/bin/env python3
"""Regenerate MANIFEST.json from the theorem names in lean/Verif/Props and tools/notes.json."""
import json,re,glob,os
root=os.path.dirname(os.path.dirname(os.path.abspath(__file__)))
notes=json.load(open(root+'/tools/notes.json'))
th={}
for f in sorted(glob.glob(root+'/lean/Verif/Props/*.lean')):
    for m in re.finditer(r'^theorem (C\d\d)(_\w+)?',open(f).read(),re.M):
        th.setdefault(m.group(1),[]).append('CP.Props.'+m.group(0)[8:])
claims=[]
for l in open(root+'/properties.jsonl'):
    d=json.loads(l); i=d['id']; n=notes.get(i,{})
    t=sorted(th.get(i,[])+n.get('also',[]))
    if not t: 
        print('no theorem',i); continue
    claims.append({"property":i,"status":n.get("status","proved"),"theorems":t,"note":n.get("note","")})
json.dump({"claims":claims},open(root+'/MANIFEST.json','w'),indent=1)
print(len(claims),'claims')
