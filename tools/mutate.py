#!/usr/bin/env python3
"""Seed wrong programs: apply one edit to a model in a scratch copy, rebuild, log what failed.
usage: mutate.py batch.py   where batch.py calls M(file, definition, old, new, edit, claim)
The log goes to /verif/seeded/LOG.jsonl. 'theorems_failed' are the theorems with an error in the
rebuilt scratch copy (the property modules of the edited area); theorems in modules that import a failing module are not built and not listed."""
import sys,os,re,json,subprocess,shutil
SRC='/verif/lean'; DST='/tmp/scratch/lean'
subprocess.run(['rsync','-a','--delete',SRC+'/',DST+'/'],check=False) if shutil.which('rsync') else (shutil.rmtree(DST,ignore_errors=True),shutil.copytree(SRC,DST,symlinks=True))
ms=[]
def M(file,definition,old,new,edit,claim,tightened=None,nth=0,note=None):
    ms.append((file,definition,old,new,edit,claim,tightened or [],nth,note))
exec(open(sys.argv[1]).read())
def owner(path,line):
    name='?'
    for i,l in enumerate(open(path),1):
        if i>line: break
        m=re.match(r'\s*(?:@\[.*?\]\s*)?(?:private |protected )?(theorem|def|example|instance|inductive|abbrev|structure)\s*([^\s:({\[]*)',l)
        if m: name=m.group(2) or m.group(1)
    return name
def closure(targets):
    # modules importing a failing module
    deps={}
    for d,_,fs in os.walk(DST+'/Verif'):
        for f in fs:
            if f.endswith('.lean'):
                p=os.path.join(d,f); mod=os.path.relpath(p,DST)[:-5].replace('/','.')
                deps[mod]=[l.split()[1] for l in open(p) if l.startswith('import Verif')]
    bad=set(targets); ch=True
    while ch:
        ch=False
        for m,ds in deps.items():
            if m not in bad and any(x in bad for x in ds): bad.add(m); ch=True
    return bad
for (file,definition,old,new,edit,claim,tight,nth,note) in ms:
    p=os.path.join(DST,'Verif',file)
    s=open(p).read()
    cnt=s.count(old)
    if cnt==0: print('NOT FOUND',file,old); continue
    idx=-1
    for _ in range(nth+1): idx=s.index(old,idx+1)
    t=s[:idx]+new+s[idx+len(old):]
    open(p,'w').write(t)
    area=file.split('/')[0]
    targets=['Verif.%s.%s'%(area,f[:-5]) for f in sorted(os.listdir(os.path.join(DST,'Verif',area))) if f.endswith('Props.lean')]
    r=subprocess.run(['nice','-n','10','lake','build']+targets,cwd=DST,capture_output=True,text=True)
    out=r.stdout+r.stderr
    failed=[];mods=set()
    for m in re.finditer(r'error: (Verif/\S+?\.lean):(\d+):',out):
        f,l=m.group(1),int(m.group(2))
        n=owner(os.path.join(DST,f),l)
        if n not in failed: failed.append(n)
        mods.add(f[:-5].replace('/','.'))
    blocked=set()
    if mods:
        for md in closure(mods)-mods:
            fp=os.path.join(DST,md.replace('.','/')+'.lean')
            for l in open(fp):
                g=re.match(r'theorem (C\d+_\w+)',l)
                if g and g.group(1).split('_')[0]==claim.split(':')[0].split()[0]: blocked.add(g.group(1))
    open(p,'w').write(s)
    rec={'definition':definition,'file':file,'edit':edit,'claim':claim,'theorems_failed':failed,
         'claim_theorems_unbuilt_because_a_lemma_failed':sorted(blocked),'theorems_tightened':tight}
    if note: rec['note']=note
    print(('SURVIVED ' if not failed else 'killed ')+definition+' | '+edit+' | '+','.join(failed[:6])+' | '+','.join(sorted(blocked)),flush=True)
    if '--dry' not in sys.argv:
        open('/verif/seeded/LOG.jsonl','a').write(json.dumps(rec,ensure_ascii=False)+'\n')
