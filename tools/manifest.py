import json,re,glob
props=[json.loads(l) for l in open('/verif/properties.jsonl')]
names={}
for f in sorted(glob.glob('/verif/lean/Verif/Props/*.lean')):
    s=open(f).read()
    ns=[]
    for line in s.split('\n'):
        m=re.match(r'namespace (\S+)',line)
        if m: ns.append(m.group(1))
        m=re.match(r'end (\S+)',line)
        if m and ns and ns[-1]==m.group(1): ns.pop()
        m=re.match(r'(?:protected )?theorem (C\d+_\S+)',line)
        if m:
            names.setdefault(m.group(1).split("_")[0],[]).append('.'.join(ns+[m.group(1)]))
notes=json.load(open('/verif/manifest_notes.json')) if glob.glob('/verif/manifest_notes.json') else {}
claims=[]
for p in props:
    i=p['id']
    t=names.get(i,[])
    n=notes.get(i,{})
    if not t and n.get('status')!='not_applicable': continue
    st=n.get('status') or ('partial' if any(x.endswith('_partial') for x in t) else 'proved')
    claims.append({"property":i,"status":st,"theorems":t,"note":n.get('note','')})
json.dump({"claims":claims},open('/verif/MANIFEST.json','w'),indent=1)
print(len(claims),[ (c['property'],c['status'],len(c['theorems'])) for c in claims])
