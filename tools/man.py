import json,re,glob,subprocess,sys
# builds MANIFEST.json from /verif/tools/man_notes.json : {"C01": {"status":..., "note":...}} and theorem names Cxx_*
notes=json.load(open('/verif/tools/man_notes.json'))
th={}
for f in sorted(glob.glob('/verif/lean/Verif/Props/*.lean')):
    src=open(f).read()
    ns=[]
    for line in src.split('\n'):
        m=re.match(r'namespace (\S+)',line)
        if m: ns.append(m.group(1))
        m=re.match(r'end (\S+)',line)
        if m and ns and ns[-1]==m.group(1): ns.pop()
        m=re.match(r'(?:theorem|lemma) (C(\d\d\d?)_\S+)',line)
        if m:
            th.setdefault('C'+m.group(2),[]).append('.'.join(ns+[m.group(1)]))
claims=[]
for l in open('/verif/properties.jsonl'):
    i=json.loads(l)['id']
    n=notes.get(i,{})
    if i in th:
        st=n.get('status') or ('partial' if all('_partial' in t for t in th[i]) else 'proved')
        claims.append(dict(property=i,status=st,theorems=th[i],note=n.get('note','')))
    elif n:
        claims.append(dict(property=i,status=n['status'],theorems=[],note=n.get('note','')))
json.dump(dict(claims=claims),open('/verif/MANIFEST.json','w'),indent=1)
print(len(claims),sum(len(c['theorems']) for c in claims), 'missing', [json.loads(l)['id'] for l in open('/verif/properties.jsonl') if json.loads(l)['id'] not in [c['property'] for c in claims]])
