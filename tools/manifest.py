import re,glob,json,collections
props=[json.loads(l)['id'] for l in open('/verif/properties.jsonl') if l.strip()]
th=collections.defaultdict(list)
for f in sorted(glob.glob('/verif/lean/Verif/Props/*.lean')):
    s=open(f).read()
    s=re.sub(r'/-.*?-/','',s,flags=re.S)
    ns=re.search(r'^namespace (\S+)',s,re.M).group(1)
    for m in re.finditer(r'^(?:protected |private )?theorem (C(\d+)_\S+)',s,re.M):
        th['C'+m.group(2)].append(ns+'.'+m.group(1))
notes=json.load(open('/verif/tools/notes.json')) if __import__('os').path.exists('/verif/tools/notes.json') else {}
claims=[]
for p in props:
    t=th.get(p,[])
    n=notes.get(p,{})
    if not t:
        if 'status' not in n: continue
        st=n['status']
        note=n.get('note','No theorem yet.')
    else:
        short=[x.split('.')[-1] for x in t]
        part=any(x.endswith('_partial') or x.endswith('_violated') or x.endswith('_statement_false') for x in short)
        st=n.get('status','partial' if part else 'proved')
        note=n.get('note','')
    claims.append({"property":p,"status":st,"theorems":t,"note":note})
json.dump({"claims":claims},open('/verif/MANIFEST.json','w'),indent=1,ensure_ascii=False)
print(collections.Counter(c['status'] for c in claims))
