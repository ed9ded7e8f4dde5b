import json,re,glob,os
# status and notes; theorems are collected from lean/Verif/Props by name prefix Cxx_
NOTES={}
exec(open(os.path.join(os.path.dirname(__file__),'notes.py')).read())
th={}
for f in sorted(glob.glob('/verif/lean/Verif/Props/*.lean')):
    ns=[]
    for line in open(f):
        m=re.match(r'namespace (\S+)',line)
        if m: ns.append(m.group(1))
        m=re.match(r'end (\S+)\s*$',line)
        if m and ns and ns[-1]==m.group(1): ns.pop()
        m=re.match(r'(?:theorem|lemma) (C\d+)_(\S+)',line)
        if m: th.setdefault(m.group(1),[]).append('.'.join(ns+[m.group(1)+'_'+m.group(2)]))
ids=[json.loads(l)['id'] for l in open('/verif/properties.jsonl')]
claims=[]
for i in ids:
    if i in NOTES and i in th:
        st,note=NOTES[i]
        claims.append(dict(property=i,status=st,theorems=th[i],note=note))
json.dump({"claims":claims},open('/verif/MANIFEST.json','w'),indent=1)
print(len(claims),'claims; missing',[i for i in ids if i not in {c['property'] for c in claims}])
