#!/usr/bin/env python3
# usage: addprop.py file.json : list of property objects (append / replace by id) with optional note/status
import json,sys
ps=[json.loads(l) for l in open('/verif/properties.jsonl') if l.strip()]
notes=json.load(open('/verif/tools/notes.json'))
for p in json.load(open(sys.argv[1])):
    note=p.pop('note',None); st=p.pop('status',None)
    if note: 
        notes[p['id']]={'note':note}
        if st: notes[p['id']]['status']=st
    for i,q in enumerate(ps):
        if q['id']==p['id']: ps[i]={**q,**p}; break
    else:
        assert 'title' in p; ps.append(p)
ps.sort(key=lambda p:p['id'] if len(p['id'])==3 else 'D'+p['id'])
open('/verif/properties.jsonl','w').write(''.join(json.dumps(p,ensure_ascii=False)+'\n' for p in ps))
json.dump(notes,open('/verif/tools/notes.json','w'),indent=1,ensure_ascii=False)
