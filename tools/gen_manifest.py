#!/usr/bin/env python3
# Generates /verif/MANIFEST.json from the theorem names in lean/Verif/Props and tools/notes.json
import json,re,glob,os
root=os.path.dirname(os.path.dirname(os.path.abspath(__file__)))
props=[json.loads(l)['id'] for l in open(root+'/properties.jsonl')]
notes=json.load(open(root+'/tools/notes.json'))
thms={}
for f in sorted(glob.glob(root+'/lean/Verif/Props/*.lean')):
    s=open(f).read()
    s=re.sub(r'/-.*?-/','',s,flags=re.S)
    for m in re.finditer(r'^theorem (C(\d\d+)_[\w\']*)',s,flags=re.M):
        thms.setdefault('C'+m.group(2),[]).append('Verif.Props.'+m.group(1))
claims=[]
for p in props:
    t=thms.get(p,[])
    if not t: continue
    st='partial' if any('_partial' in x or '_violated' in x for x in t) else 'proved'
    n=notes.get(p,'')
    if isinstance(n,dict): st=n.get('status',st); n=n['note']
    claims.append(dict(property=p,status=st,theorems=t,note=n))
json.dump({"claims":claims},open(root+'/MANIFEST.json','w'),indent=1)
print(len(claims),'claims',sum(c['status']=='proved' for c in claims),'proved; missing',[p for p in props if p not in thms])
