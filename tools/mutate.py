#!/usr/bin/env python3
"""Apply realistic bugs to a scratch copy of the model and record which theorems fail.
usage: mutate.py mutations.json   (a list of {file, def, edit, claim, old, new})"""
import json, subprocess, sys, re, os, shutil, time, signal
SRC=os.environ.get('MUT_SRC','/verif/lean'); DST='/tmp/mut/lean'
os.makedirs('/tmp/mut',exist_ok=True)
def sh(c): return subprocess.run(c,shell=True,capture_output=True,text=True)
def enclosing(path,line):
    ls=open(path).read().split('\n')
    for i in range(min(line,len(ls))-1,-1,-1):
        m=re.match(r'\s*(?:@\[[^\]]*\]\s*)?(?:private |protected )?(theorem|lemma|def|instance|example|abbrev)\s*([^\s:({\[]*)',ls[i])
        if m: return m.group(2) or 'example@%s:%d'%(os.path.basename(path),i+1)
    return '?'
def build():
    # with EARLY=n the build is ended n seconds after the first error
    n=os.environ.get('EARLY')
    if not n: return sh(f'cd {DST} && lake build 2>&1').stdout
    f=open('/tmp/mut/out','w')
    p=subprocess.Popen('lake build 2>&1',shell=True,cwd=DST,stdout=f,start_new_session=True)
    t=None
    while p.poll() is None:
        time.sleep(0.5)
        if t is None and 'error: Verif/' in open('/tmp/mut/out').read(): t=time.time()
        if t and time.time()-t>float(n):
            os.killpg(p.pid,signal.SIGKILL); break
    p.wait(); f.close()
    return open('/tmp/mut/out').read()
for m in json.load(open(sys.argv[1])):
    sh(f'rm -rf {DST}; cp -a {SRC} {DST}')
    p=f'{DST}/Verif/{m["file"]}'
    s=open(p).read()
    if s.count(m['old'])<1: print('NOT FOUND',m['def'],m['edit']); continue
    open(p,'w').write(s.replace(m['old'],m['new'],1))
    out=build()
    failed=[];
    for f,l in re.findall(r'error: (Verif/[\w/]+\.lean):(\d+):',out):
        n=enclosing(f'{DST}/{f}',int(l))
        if n not in failed: failed.append(n)
    ok='Build completed successfully' in out
    # which property modules were blocked
    broken=set(re.findall(r'- (Verif[\w.]*)',out))
    rec={'definition':m['def'],'edit':m['edit'],'claim':m['claim'],'theorems_failed':failed,'tightened':m.get('tightened',[])}
    if ok: print('SURVIVED',m['def'],m['edit'])
    else: print('killed  ',m['def'],'|',m['edit'],'|',failed)
    if not ok or m.get('log_survivor'):
        open('/verif/seeded/LOG.jsonl','a').write(json.dumps(rec)+'\n')
