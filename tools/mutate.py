#!/usr/bin/env python3
"""Seeded-bug harness.  usage: mutate.py mutants.json
mutants.json: list of {file, old, new, definition, claim}.  Each is applied to a scratch copy of lean/ (outside /verif), the
component is rebuilt and the theorems whose proofs fail are recorded in seeded/LOG.jsonl."""
import json,sys,os,re,subprocess,shutil
root='/verif'; scratch='/tmp/mut/lean'
os.makedirs('/tmp/mut',exist_ok=True)
subprocess.run(['rsync','-a','--delete',root+'/lean/',scratch+'/']) if shutil.which('rsync') else (shutil.rmtree(scratch,ignore_errors=True),subprocess.run(['cp','-r',root+'/lean',scratch]))
muts=json.load(open(sys.argv[1]))
def thm_at(path,line):
    ls=open(path).read().split('\n')
    for i in range(min(line,len(ls))-1,-1,-1):
        m=re.match(r'\s*(?:private |@\[[^\]]*\] )*(theorem|lemma|def|instance|example|inductive|structure)\b\s*([^\s:({\[]*)',ls[i])
        if m: return m.group(2) or m.group(1)
    return '?'
for m in muts:
    path=f'{scratch}/Verif/{m["file"]}'
    src=open(path).read()
    if src.count(m['old'])<1: print('NOT FOUND',m['definition'],m['old']); continue
    if src.count(m['old'])>1 and not m.get('first'): print('AMBIGUOUS',m['definition'],m['old']); continue
    open(path,'w').write(src.replace(m['old'],m['new'],1))
    comp='.'.join(m['file'][:-5].split('/')[:-1])
    targets=m.get('targets') or [f'Verif.{comp}.Props']
    out=subprocess.run(['lake','build']+targets,cwd=scratch,capture_output=True,text=True)
    txt=out.stdout+out.stderr
    failed=[]
    for mm in re.finditer(r'error: (Verif/\S+\.lean):(\d+):',txt):
        t=thm_at(f'{scratch}/{mm.group(1)}',int(mm.group(2)))
        t=f'{mm.group(1)[6:-5]}:{t}'
        if t not in failed: failed.append(t)
    open(path,'w').write(src)
    killed=out.returncode!=0 and bool(failed)
    rec={'definition':m['definition'],'file':m['file'],'edit':m.get('edit') or f'{m["old"].strip()}  →  {m["new"].strip()}','claim_broken':m['claim'],'theorems_failed':failed,'theorems_tightened':m.get('tightened',[])}
    if not killed: rec['note']=m.get('note','SURVIVED')
    print(('killed  ' if killed else 'SURVIVED'),m['definition'],'|',rec['edit'][:90],'|',failed[:4])
    if killed or m.get('note'):
        with open(root+'/seeded/LOG.jsonl','a') as f: f.write(json.dumps(rec,ensure_ascii=False)+'\n')
