#!/usr/bin/env python3
"""Regenerates MANIFEST.json from the theorem names in lean/Verif and tools/notes.json."""
import re,json,glob,os
root=os.path.dirname(os.path.dirname(os.path.abspath(__file__)))
props=[json.loads(l)['id'] for l in open(root+'/properties.jsonl') if l.strip()]
notes=json.load(open(root+'/tools/notes.json')) if os.path.exists(root+'/tools/notes.json') else {}
th={}
for f in sorted(glob.glob(root+'/lean/Verif/**/*.lean',recursive=True)):
    ns=[]
    for line in open(f):
        m=re.match(r'namespace\s+(\S+)',line)
        if m: ns.append(m.group(1))
        m=re.match(r'end\s+(\S+)',line)
        if m and ns and ns[-1]==m.group(1): ns.pop()
        m=re.match(r'theorem\s+(C(\d+)_\w+)',line)
        if m: th.setdefault('C'+m.group(2),[]).append('.'.join(ns+[m.group(1)]))
claims=[]
for p in props:
    t=th.get(p,[])
    n=notes.get(p,{})
    if n.get('status'): st=n['status']
    elif not t: continue
    elif any(x.endswith('_partial') or x.endswith('_violated') for x in t): st='partial'
    else: st='proved'
    claims.append({'property':p,'status':st,'theorems':t,'note':n.get('note','')})
unk=set(th)-set(props)
if unk: print('UNKNOWN PROPS',unk)
json.dump({'claims':claims},open(root+'/MANIFEST.json','w'),indent=1)
print(len(claims),'claims; missing:',[p for p in props if p not in {c['property'] for c in claims}])
