import re,glob,json,subprocess
notes=json.load(open('/tmp/w/notes.json'))
ths={}
for f in sorted(glob.glob('/verif/lean/Verif/Props/*.lean')):
    t=open(f).read()
    for m in re.finditer(r'^(?:@\[[^\]]*\] *)?theorem (C(\d\d+)_\w+)',t,re.M):
        ths.setdefault('C'+m.group(2),[]).append('Verif.'+m.group(1))
props=[json.loads(l)['id'] for l in open('/verif/properties.jsonl')]
claims=[]
for p in props:
    if p in ths:
        l=ths[p]
        part=any(x.endswith('_partial') or x.endswith('_false') for x in l)
        st=notes.get(p,{}).get('status') or ('partial' if part else 'proved')
        claims.append({"property":p,"status":st,"theorems":l,"note":notes.get(p,{}).get('note','')})
miss=[p for p in props if p not in ths]
open('/verif/MANIFEST.json','w').write('{"claims": [\n'+',\n'.join(json.dumps(c,ensure_ascii=False) for c in claims)+'\n]}\n')
print('missing',miss)
print('no note',[c['property'] for c in claims if not c['note']])
