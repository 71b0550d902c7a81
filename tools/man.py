import json,re,glob
# collect theorem names from lean files
names={}
for f in glob.glob('/verif/lean/Verif/**/*.lean',recursive=True):
    ns=[];
    for l in open(f):
        m=re.match(r'namespace (\S+)',l)
        if m: ns.append(m.group(1))
        m=re.match(r'end (\S+)\s*$',l)
        if m and ns and ns[-1]==m.group(1): ns.pop()
        m=re.match(r'(?:protected )?theorem (C\d\d\d?_\S+)',l)
        if m: names.setdefault(m.group(1).split("_")[0],[]).append('.'.join(ns+[m.group(1)]))
exec(open('/verif/tools/man_notes.py').read())  # defines STATUS: id -> (status,note)
props=[json.loads(l) for l in open('/verif/properties.jsonl')]
claims=[]
for p in props:
    i=p['id']
    if i in STATUS:
        st,note=STATUS[i]
        th=names.get(i,[])
        assert th or st=='not_applicable',i
        claims.append(dict(property=i,status=st,theorems=th,note=note))
    else: print('no status',i, names.get(i))
json.dump({"claims":claims},open('/verif/MANIFEST.json','w'),indent=1)
