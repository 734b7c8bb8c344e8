import json,re,glob,sys
names=[]
for f in sorted(glob.glob('/verif/lean/Verif/Props/*.lean')):
    names+=re.findall(r'^theorem (C\d+_[A-Za-z0-9_]+)',open(f).read(),re.M)
by={}
for n in names: by.setdefault(n.split('_')[0],[]).append('Verif.Props.'+n)
S=json.load(open('/verif/tools/status.json'))
props=[json.loads(l)['id'] for l in open('/verif/properties.jsonl')]
claims=[]
for p in props:
    st,note=S.get(p,("not_applicable","pending"))
    th=by.get(p,[])
    if not th: print('no theorem for',p)
    claims.append(dict(property=p,status=st,theorems=th,note=note))
for p in by:
    if p not in props: print('theorem without property',p)
json.dump({"claims":claims},open('/verif/MANIFEST.json','w'),indent=1,ensure_ascii=False)
