#!/usr/bin/env python3
"""Seeded-bug testing of the theorems, in a scratch copy (never in /verif).
usage: mutate.py MUTANTS.py  -- the file defines MUTANTS = [(file, definition, old, new, claim), ...]
Each mutant is applied to a copy of /verif/lean, the copy is rebuilt and one line per mutant is
appended to /verif/seeded/LOG.jsonl. The build is stopped 20 s after the first error, so the list of failed
theorems is only the first few."""
import sys, os, re, subprocess, json, shutil, runpy, time, signal, threading
SRC='/verif/lean'; DST='/tmp/scratch/lean'
def sync():
    os.makedirs(DST, exist_ok=True)
    subprocess.run(['rsync','-a','--delete',SRC+'/',DST+'/'],check=True) if shutil.which('rsync') else subprocess.run(f'rm -rf {DST} && cp -a {SRC} {DST}',shell=True,check=True)
def encl(path,line):
    ls=open(path).read().split('\n')
    for i in range(min(line,len(ls))-1,-1,-1):
        m=re.match(r'\s*(?:@\[[^\]]*\]\s*)?(?:private |protected |noncomputable )*(theorem|lemma|def|abbrev|example|instance|structure|inductive)\b\s*(\S+)?',ls[i])
        if m:
            return m.group(1)+':'+(m.group(2) or '').rstrip(':')
    return '?'
def build():
    pr=subprocess.Popen(['lake','build'],cwd=DST,stdout=subprocess.PIPE,stderr=subprocess.STDOUT,text=True,start_new_session=True)
    out=[]; timer=None
    def stop():
        try: os.killpg(pr.pid,signal.SIGTERM)
        except ProcessLookupError: pass
    for l in pr.stdout:
        out.append(l)
        if timer is None and re.match(r'error: Verif/\S+\.lean:\d+',l):
            timer=threading.Timer(20,stop); timer.start()
    pr.wait()
    if timer: timer.cancel()
    return (1 if timer else pr.returncode),''.join(out)
def main():
    muts=runpy.run_path(sys.argv[1])['MUTANTS']
    sync()
    log=open('/verif/seeded/LOG.jsonl','a')
    for f,d,old,new,claim in muts:
        p=f'{DST}/Verif/{f}'
        orig=open(p).read()
        if orig.count(old)!=1:
            print('BAD PATTERN',f,d,orig.count(old)); continue
        open(p,'w').write(orig.replace(old,new))
        rc,out=build()
        failed=[];files=set()
        for m in re.finditer(r'error: (Verif/\S+\.lean):(\d+):\d+',out):
            n=encl(f'{DST}/{m.group(1)}',int(m.group(2))); files.add(m.group(1))
            if n not in failed: failed.append(n)
        surv = rc==0
        print(('SURVIVED ' if surv else 'killed   ')+d+' :: '+new.strip().replace('\n',' ')[:70]+' -> '+', '.join(failed)[:300],flush=True)
        rec={"definition":d,"file":f,"edit":f"{old.strip()}  ==>  {new.strip()}","claim_broken":claim,
             "theorems_failed":failed,"failing_files":sorted(files),"survived":surv,"theorems_tightened":[]}
        log.write(json.dumps(rec,ensure_ascii=False)+'\n'); log.flush()
        open(p,'w').write(orig)
    subprocess.run(['lake','build'],cwd=DST,capture_output=True)
main()
