"""Runs seeded edits of the model in a scratch copy and logs which theorems notice.

usage: seed.py edits.json   (list of {"file","def","old","new","claim"}; file relative to lean/Verif)
"""
import sys,os,re,json,subprocess,shutil
SRC='/verif/lean'; DST='/tmp/scratch/lean'; LOG='/verif/seeded/LOG.jsonl'
def sh(c,t=3000):
    return subprocess.run(c,shell=True,capture_output=True,text=True,timeout=t)
def sync():
    os.makedirs(DST,exist_ok=True)
    sh(f"rsync -a --delete {SRC}/ {DST}/") if shutil.which('rsync') else sh(f"rm -rf {DST}; cp -a {SRC} {DST}")
def deps():
    prog='''
import Lean
import Verif
open Lean
partial def reach (env : Environment) (c : Name) (s : NameSet) : NameSet :=
  if s.contains c || !(`Verif).isPrefixOf c then s else
  match env.find? c with
  | none => s
  | some i => i.getUsedConstantsAsSet.foldl (fun s d => reach env d s) (s.insert c)
#eval show CoreM Unit from do
  let env ← getEnv
  let names := env.constants.map₁.fold (fun l c i => match i with
    | .thmInfo _ => if (`Verif.Props).isPrefixOf c && !c.isInternal then c :: l else l | _ => l) []
  for n in names do
    let r := reach env n {}
    IO.println s!"{n} {" ".intercalate (r.toList.map toString)}"
'''
    open(DST+'/Deps.lean','w').write(prog)
    r=sh(f"cd {DST} && lake env lean Deps.lean")
    os.remove(DST+'/Deps.lean')
    d={}
    for l in r.stdout.splitlines():
        p=l.split()
        if p and p[0].startswith('Verif.Props'): d[p[0]]=set(p[1:])
    return d
def decl_at(path,line):
    ls=open(path).read().split('\n')
    ns=[]
    name='?'
    for i,l in enumerate(ls[:line]):
        m=re.match(r'namespace (\S+)',l)
        if m: ns.append(m.group(1))
        m=re.match(r'end (\S+)',l)
        if m and ns and ns[-1].split('.')[-1]==m.group(1).split('.')[-1]: ns.pop()
        m=re.match(r'(?:@\[.*?\] )?(?:private |protected |noncomputable )*(theorem|lemma|def|structure|abbrev) (\S+)',l)
        if m: name='.'.join(ns+[m.group(2)])
        m=re.match(r'(example|instance)',l)
        if m: name='.'.join(ns)+'.'+m.group(1)+'@'+str(i+1)
    return name
def run(e,D):
    f=f"{DST}/Verif/{e['file']}"
    s=open(f).read()
    if s.count(e['old'])!=1:
        return {"error":f"old text occurs {s.count(e['old'])} times"}
    open(f,'w').write(s.replace(e['old'],e['new']))
    try:
        r=sh(f"cd {DST} && timeout 2400 lake build 2>&1")
        errs=set(re.findall(r'error: (Verif/\S+?\.lean):(\d+):\d+',r.stdout))
        bad=set()
        for p,l in errs: bad.add((p,decl_at(f"{DST}/{p}",int(l))))
    finally:
        open(f,'w').write(s)
    names={b for _,b in bad}
    failed=sorted({t for t,ds in D.items() if re.search(r'\.C\d+_',t) and (ds & names)}
        | {n for n in names if re.search(r'\.C\d+_',n)})
    return {"failed":failed,"first":sorted(b for _,b in bad),"ok":r.returncode==0,
            "model_broken":[b for p,b in bad if p.startswith('Verif/Model') or p.startswith('Verif/Spec')]}
if __name__=='__main__':
    sync()
    r=sh(f"cd {DST} && lake build 2>&1")
    assert r.returncode==0, r.stdout[-2000:]
    D=deps()
    print(len(D),'theorems')
    for e in json.load(open(sys.argv[1])):
        out=run(e,D)
        short=[x.replace('Verif.Props.','') for x in out.get('failed',[])]
        print(e['def'],'|',e['claim'],'|', 'SURVIVED' if out.get('ok') else out.get('error') or ('MODEL BROKEN '+str(out['model_broken']) if out['model_broken'] else short or out['first']),flush=True)
        if 'error' in out or out.get('model_broken'): continue
        with open(LOG,'a') as g:
            g.write(json.dumps({"definition":e['def'],"file":e['file'],"edit":{"old":e['old'],"new":e['new']},
                "claim_broken":e['claim'],"theorems_failed":out['failed'],"other_failures":[x for x in out['first'] if x not in out['failed']],
                "caught":not out['ok'],"theorems_tightened":e.get('tightened',[])},ensure_ascii=False)+"\n")
