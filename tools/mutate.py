#!/usr/bin/env python3
"""Apply model mutations one at a time in a scratch copy and report which theorems fail.
usage: mutate.py mutations.jsonl   (fields: file, old, new, definition, edit, claim)
Appends one line per attempt to seeded/LOG.jsonl."""
import json,os,re,subprocess,sys,shutil
V='/verif'; S='/tmp/mut/lean'
os.makedirs('/tmp/mut',exist_ok=True)
def sync():
    for d,_,xs in os.walk(V+'/lean'):
        if '.lake' in d: continue
        for x in xs:
            a=os.path.join(d,x); b=a.replace(V+'/lean',S)
            os.makedirs(os.path.dirname(b),exist_ok=True)
            t=open(a,'rb').read()
            if not os.path.exists(b) or open(b,'rb').read()!=t: open(b,'wb').write(t)
if not os.path.exists(S+'/.lake'): subprocess.run(['cp','-r',V+'/lean','/tmp/mut/'],check=True)
def build(): return subprocess.run(['lake','build'],cwd=S,capture_output=True,text=True,timeout=3600)
def thm(f,l):
    lines=open(S+'/'+f).read().split('\n')[:l]
    for x in reversed(lines):
        m=re.match(r'\s*(?:noncomputable |private |protected |@\[.*?\] )*(theorem|def|instance|example|abbrev|lemma)\s*(\S*)',x)
        if m: return 'example' if m[1]=='example' else m[2]
    return '?'
def imports(f):
    return [m.replace('.','/')+'.lean' for m in re.findall(r'^import (Verif\S*)',open(f).read(),re.M)]
for line in open(sys.argv[1]):
    if not line.strip(): continue
    mu=json.loads(line)
    sync()
    p=S+'/'+mu['file']; s=open(p).read()
    n=s.count(mu['old'])
    if n!=1: print('SKIP',mu['edit'],'matches',n); continue
    open(p,'w').write(s.replace(mu['old'],mu['new']))
    r=build(); out=r.stdout+r.stderr
    fails=[]
    bad=set()
    for f,l in re.findall(r'error: (Verif\S*?\.lean):(\d+)',out):
        bad.add(f); t=f.replace('Verif/','').replace('.lean','')+':'+thm(f,int(l))
        if t not in fails: fails.append(t)
    # blocked modules
    blocked=set(bad); ch=True
    files=[os.path.relpath(os.path.join(d,x),S) for d,_,xs in os.walk(S+'/Verif') for x in xs if x.endswith('.lean')]
    while ch:
        ch=False
        for f in files:
            if f not in blocked and any(i in blocked for i in imports(S+'/'+f)): blocked.add(f); ch=True
    props=sorted(f[12:-5] for f in blocked if f.startswith('Verif/Props/'))
    rec=dict(definition=mu['definition'],edit=mu['edit'],claim=mu['claim'],theorems_failed=fails,props_not_built=props,theorems_tightened=mu.get('tightened',[]))
    print(json.dumps(rec),flush=True)
    if not mu.get('nolog'): open(V+'/seeded/LOG.jsonl','a').write(json.dumps(rec)+'\n')
sync(); build()
