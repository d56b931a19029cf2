#!/usr/bin/env python3
"""Mutation testing of the model.  usage: mutate.py batch.py [name-filter]
A batch file defines M = [(file, definition, old, new, claim), ...].  Every mutation is applied to a fresh copy
of /verif/lean outside /verif, `lake build` is run there, and the declarations in which errors are reported are
collected.  A line is appended to /verif/seeded/LOG.jsonl per mutation."""
import sys, os, re, json, shutil, subprocess, tempfile, runpy
from concurrent.futures import ThreadPoolExecutor
root='/verif'
snap='/tmp/mut/snap_%d'%os.getpid()
os.makedirs('/tmp/mut',exist_ok=True)
subprocess.run(['cp','-r',root+'/lean',snap],check=True)
# reuse compiled modules (lake decides by content); build the snapshot once
if os.environ.get('MUT_LAKE'):
    shutil.rmtree(snap+'/.lake',ignore_errors=True)
    subprocess.run(['cp','-r',os.environ['MUT_LAKE'],snap+'/.lake'],check=True)
subprocess.run(['lake','build'],cwd=snap,capture_output=True)
M=runpy.run_path(sys.argv[1])['M']
flt=sys.argv[2] if len(sys.argv)>2 else None
def decl(path,line):
    ls=open(path).read().split('\n')
    for i in range(min(line,len(ls))-1,-1,-1):
        m=re.match(r'(?:private |noncomputable )?(theorem|def|abbrev|structure|instance|example|inductive)\s*(\S*)',ls[i])
        if m: return m.group(2) if m.group(1)!='example' else 'example@%d'%(i+1)
    return '?'
def run(i):
    f,d,old,new,claim=M[i]
    t='/tmp/mut/%d_%d'%(os.getpid(),i)
    shutil.rmtree(t,ignore_errors=True)
    os.makedirs('/tmp/mut',exist_ok=True)
    subprocess.run(['cp','-r',snap,t],check=True)
    p=t+'/Verif/'+f
    s=open(p).read()
    if s.count(old)<1: 
        shutil.rmtree(t); return dict(error='pattern not found',definition=d,edit=old)
    a=s.find(d.split('.')[-1]) if False else 0
    # pattern must be inside the definition: choose the first occurrence after the definition's header
    m=re.search(r'(?:def|abbrev|structure|inductive|instance)\s+'+re.escape(d)+r'\b',s)
    a=m.start() if m else 0
    k=s.find(old,a)
    if k<0:
        shutil.rmtree(t); return dict(error='pattern not found after definition',definition=d,edit=old)
    s=s[:k]+new+s[k+len(old):]
    open(p,'w').write(s)
    try:
        r=subprocess.run(['lake','build'],cwd=t,capture_output=True,text=True,timeout=1500)
        out=r.stdout+r.stderr
    except subprocess.TimeoutExpired as e:
        out='error: TIMEOUT'
    fails=[]
    for m in re.finditer(r'^error: (Verif/\S+\.lean):(\d+):\d+: (.*)$',out,re.M):
        n=decl(t+'/'+m.group(1),int(m.group(2)))
        x=m.group(1)[6:-5].replace('/','.')+':'+n
        if x not in fails: fails.append(x)
    modelbroken=[x for x in fails if x.startswith('Model.') and x.split(':')[1]==d.split('.')[-1]]
    mods=sorted(set(re.findall(r'^- (Verif\S*)$',out,re.M)))
    shutil.rmtree(t,ignore_errors=True)
    return dict(definition=f'{f}:{d}',edit=f'{old.strip()}  ==>  {new.strip()}',claim=claim,killed=bool(fails) or 'TIMEOUT' in out,
        theorems_failed=fails,failed_modules=mods,model_does_not_compile=bool(modelbroken),theorems_tightened=[])
idx=[i for i in range(len(M)) if not flt or flt in M[i][1] or flt in M[i][0]]
with ThreadPoolExecutor(int(os.environ.get('MUT_JOBS','2'))) as ex:
    for r in ex.map(run,idx):
        if 'error' in r or r['model_does_not_compile']:
            print('!!',r.get('error'),r['definition'],r['edit'][:80],r.get('theorems_failed')); continue
        print('KILLED  ' if r['killed'] else 'SURVIVED',r['definition'],'|',r['edit'][:100].replace('\n',' '),'|',r['theorems_failed'][:4],flush=True)
        with open(root+'/seeded/LOG.jsonl','a') as f: f.write(json.dumps(r)+'\n')

shutil.rmtree(snap,ignore_errors=True)
