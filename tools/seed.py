#!/usr/bin/env python3
"""usage: seed.py edits.json ; each: {"file","old","new","definition","edit","claim","count"?}"""
import json,sys,subprocess,os,re
SC='/tmp/seed/lean'
def sync():
    os.makedirs('/tmp/seed',exist_ok=True)
    subprocess.run(['rm','-rf',SC],check=True)
    subprocess.run(['cp','-a','/verif/lean',SC],check=True)
def encl(f,line):
    L=open(os.path.join(SC,f)).read().split('\n')
    for i in range(min(line,len(L))-1,-1,-1):
        m=re.match(r'\s*(?:@\[[^\]]*\]\s*)?(?:private |protected |noncomputable )*(theorem|lemma|def|example|instance|structure|inductive|abbrev)\b\s*(\S*)',L[i])
        if m: return m.group(2) if m.group(1)!='example' else 'example'
    return '?'
edits=json.load(open(sys.argv[1]))
subprocess.run(['lake','build'],cwd='/verif/lean',stdout=subprocess.DEVNULL)
for e in edits:
    sync()
    p=os.path.join(SC,e['file'])
    s=open(p).read()
    c=s.count(e['old'])
    if c<1: print('!! NOT FOUND',e['definition'],e['old'][:60]); continue
    if c>1 and not e.get('multi'): print('!! AMBIGUOUS',c,e['definition'],e['old'][:60]); continue
    open(p,'w').write(s.replace(e['old'],e['new']))
    r=subprocess.run(['lake','build'],cwd=SC,capture_output=True,text=True)
    out=r.stdout+r.stderr
    failed=[];mods=set()
    for m in re.finditer(r'error: (Verif/[\w/]+\.lean):(\d+):',out):
        n=encl(m.group(1),int(m.group(2)))
        if n not in failed: failed.append(n)
        mods.add(m.group(1))
    tight=e.get('tightened',[])
    rec=dict(definition=e['definition'],edit=e['edit'],claim_broken=e['claim'],theorems_failed=failed,failing_modules=sorted(mods),theorems_tightened=tight)
    print(('KILLED ' if r.returncode else 'SURVIVED ')+e['definition']+' | '+e['edit']+' -> '+', '.join(failed[:6]))
    if r.returncode or e.get('log_survivor'):
        open('/verif/seeded/LOG.jsonl','a').write(json.dumps(rec)+'\n')
