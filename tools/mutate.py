#!/usr/bin/env python3
"""Run seeded bugs against the theorems, in a scratch copy outside /verif.
usage: mutate.py MUTANTS.json   (list of {file, def, old, new, breaks})
Appends one line per attempt to /verif/seeded/LOG.jsonl."""
import json,subprocess,shutil,os,re,sys
SRC='/verif/lean'; DST=os.environ.get('MUTDIR','/tmp/mut/lean')
def sync():
    subprocess.run(['rsync','-a','--delete','--exclude','.lake',SRC+'/',DST+'/'],check=True) if shutil.which('rsync') else None
    if not shutil.which('rsync'):
        os.makedirs(DST,exist_ok=True)
        for r,d,f in os.walk(SRC):
            if '.lake' in r: continue
            t=r.replace(SRC,DST,1); os.makedirs(t,exist_ok=True)
            for x in f:
                a,b=os.path.join(r,x),os.path.join(t,x)
                if not os.path.exists(b) or open(a,'rb').read()!=open(b,'rb').read(): shutil.copy(a,b)
    if not os.path.exists(DST+'/.lake'): shutil.copytree(SRC+'/.lake',DST+'/.lake')
def thm_at(path,line):
    L=open(path).read().split('\n')
    for i in range(min(line,len(L))-1,-1,-1):
        m=re.match(r'^(?:private |protected |@\[.*\] )*(theorem|lemma|def|instance|abbrev)\s+(\S+)',L[i])
        if m: return m.group(2)
        if re.match(r'^example\b',L[i]): return 'example@%s:%d'%(os.path.basename(path),i+1)
    return os.path.basename(path)
TARGETS={'Strings':['Strings'],'RuleFile':['Rules','PostInstall'],'Crash':['Crash'],'Numbers':['Numbers'],'Paths':['Inside'],'Lock':['Lock'],
 'RemoveCmd':['RemoveCmd'],'LineFile':['LineFile'],'RemoveFile':['RemoveFile'],'Repo':['Repo','RepoQuery'],'Containers':['Containers'],
 'Argv':['Argv'],'Conf':['Conf'],'Ports':['Ports'],'Pkgfile':['Pkgfile'],'Resolve':['Resolve','Verify'],'Upgrade':['Upgrade']}
def build(m):
    # the theorem files about the model first; everything when they still build
    t=['Verif.Props.'+x for x in m.get('targets',TARGETS.get(os.path.basename(m['file'])[:-5],[]))]
    if t:
        r=subprocess.run(['lake','build']+t,cwd=DST,capture_output=True,text=True)
        if r.returncode!=0: return r
    return subprocess.run(['lake','build'],cwd=DST,capture_output=True,text=True)
muts=json.load(open(sys.argv[1]))
sync()
subprocess.run(['lake','build'],cwd=DST,stdout=subprocess.DEVNULL,stderr=subprocess.DEVNULL)
for m in muts:
    p=os.path.join(DST,'Verif',m['file']); s=open(p).read()
    if s.count(m['old'])!=1:
        print('BAD',m['def'],m['old'][:50],s.count(m['old'])); continue
    open(p,'w').write(s.replace(m['old'],m['new']))
    r=build(m)
    out=r.stdout+r.stderr
    failed=[]
    for f,l in re.findall(r'error: (Verif/\S+?\.lean):(\d+)',out):
        t=thm_at(os.path.join(DST,f),int(l))
        if t not in failed: failed.append(t)
    mods=sorted(set(re.findall(r'- (Verif\.\S+)',out)))
    open(p,'w').write(s)
    rec={'definition':m['def'],'file':m['file'],'edit':m['old']+'  ==>  '+m['new'],'claim_broken':m['breaks'],
         'theorems_failed':failed,'modules_failed':mods,'caught':r.returncode!=0,'theorems_tightened':m.get('tightened',[])}
    if m.get('note'): rec['note']=m['note']
    print('SELF' if m['def'] in failed or 'error: build failed' not in out and r.returncode!=0 else 'OK  ' if rec['caught'] else 'SURV',m['def'],'|',m['new'][:50].replace('\n',' '),'|',failed[:4],flush=True)
    if m['def'] in failed: continue   # the edit does not compile: not a wrong program
    open('/verif/seeded/LOG.jsonl','a').write(json.dumps(rec,ensure_ascii=False)+'\n')
