#!/usr/bin/env python3
"""Mutation testing of the model in a scratch copy (/tmp/mut/lean).
usage: mutate.py FILE.json   -- list of {file, def, old, new, edit, claim}
Prints, and appends to /verif/seeded/LOG.jsonl, the theorems that fail to build."""
import json,subprocess,sys,re,os,shutil
SRC="/verif/lean"; DST="/tmp/mut/lean"
def sync():
    """make the scratch sources equal to /verif/lean, touching only files that differ"""
    want=set()
    for r,d,fs in os.walk(SRC):
        d[:]=[x for x in d if x!=".lake"]
        for f in fs:
            p=os.path.join(r,f); q=DST+p[len(SRC):]; want.add(q)
            os.makedirs(os.path.dirname(q),exist_ok=True)
            if not os.path.exists(q) or open(p,'rb').read()!=open(q,'rb').read(): shutil.copyfile(p,q)
    for r,d,fs in os.walk(DST):
        d[:]=[x for x in d if x!=".lake"]
        for f in fs:
            q=os.path.join(r,f)
            if q not in want: os.remove(q)
def enclosing(path,line):
    ls=open(os.path.join(DST,path)).read().split("\n")
    for i in range(min(line,len(ls))-1,-1,-1):
        m=re.match(r"\s*(?:private |noncomputable |protected )*(theorem|lemma|def|example|instance|structure)\b\s*([^\s:({\[]*)",ls[i])
        if m: return m.group(2) or m.group(1)
    return "?"
class R: pass
def build(targets,grace=45):
    """lake build; stopped `grace` seconds after the first error"""
    import threading,time,signal
    pr=subprocess.Popen(["nice","lake","build"]+targets,cwd=DST,stdout=subprocess.PIPE,stderr=subprocess.STDOUT,text=True,start_new_session=True)
    out=[];first=[None]
    def rd():
        for l in pr.stdout:
            out.append(l)
            if re.match(r"error: Verif/",l) and first[0] is None: first[0]=time.time()
    t=threading.Thread(target=rd);t.start()
    while pr.poll() is None:
        time.sleep(1)
        if first[0] and time.time()-first[0]>grace:
            os.killpg(pr.pid,signal.SIGTERM)
            pr.wait();break
    t.join(10)
    r=R();r.stdout="".join(out);r.stderr="";r.returncode=pr.returncode if not first[0] else 1
    return r
def pristine():
    """copy the sources, build them and keep the build, so that every mutant starts from it"""
    sync()
    r=build([])
    if r.returncode: sys.exit("the sources do not build")
    shutil.rmtree("/tmp/mut/pristine",ignore_errors=True)
    subprocess.run(["cp","-a",DST,"/tmp/mut/pristine"],check=True)
def restore():
    shutil.rmtree(DST,ignore_errors=True)
    subprocess.run(["cp","-a","/tmp/mut/pristine",DST],check=True)
muts=json.load(open(sys.argv[1]))
if "freeze" not in sys.argv: pristine()
for m in muts:
    restore()
    p=os.path.join(DST,m["file"]); s=open(p).read()
    n=s.count(m["old"])
    if n!=1 and not (m.get("all") and n): print("BAD PATTERN",n,m["def"],m["old"]); continue
    open(p,"w").write(s.replace(m["old"],m["new"]))
    r=build(m.get("targets",[]))
    failed=[]
    for x in re.finditer(r"error: (Verif/\S+?\.lean):(\d+):\d+",r.stdout+r.stderr):
        t=enclosing(x.group(1),int(x.group(2)))
        t=f"{x.group(1)[6:-5].replace('/','.')}:{t}"
        if t not in failed: failed.append(t)
    rec=dict(definition=m["def"],edit=m["edit"],claim_broken=m["claim"],theorems_failed=failed,theorems_tightened=m.get("tightened",[]))
    print(("SURVIVED " if r.returncode==0 else "killed   "),m["def"],"|",m["edit"],"|",failed,flush=True)
    open(p,"w").write(s)
    with open("/tmp/mut/out.jsonl","a") as f: f.write(json.dumps(rec)+"\n")
    if failed or m.get("log"):
        with open("/verif/seeded/LOG.jsonl","a") as f: f.write(json.dumps(rec)+"\n")
