"""usage: addprop.py file.json ; list of {id,title,statement,quantifier,why,anchors(list of python exprs or str),status,note,design}"""
import json,sys
for d in json.load(open(sys.argv[1])):
    f='/verif/tools/mkprops.py';t=open(f).read()
    line='p(%r,%r,%r,%r,%r,%r)\n'%(d['id'],d['title'],d['statement'],d['quantifier'],d['why'],d['anchors'])
    assert "p('%s'"%d['id'] not in t
    t=t.replace("open('/verif/properties.jsonl'",line+"open('/verif/properties.jsonl'",1); open(f,'w').write(t)
    f='/verif/tools/status.py';t=open(f).read()
    t=t.replace("\n}\njson.dump","\n%r:(%r,%r),\n}\njson.dump"%(d['id'],d['status'],d['note']),1); open(f,'w').write(t)
    f='/verif/DESIGN.md';t=open(f).read().split('\n')
    k=max(i for i,l in enumerate(t) if l.startswith('| C') )
    t.insert(k+1,'| %s | %s |'%(d['id'],d['design'])); open(f,'w').write('\n'.join(t))
