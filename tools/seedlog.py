#!/usr/bin/env python3
"""Turn the results of the wrong-program harness into seeded/LOG.jsonl.
usage: seedlog.py results.out...   (later results for the same mutant id win)"""
import json,sys,os
root=os.path.dirname(os.path.dirname(os.path.abspath(__file__)))
notes=json.load(open(root+'/tools/seednotes.json'))
recs={};order=[]
for f in sys.argv[1:]:
    for l in open(f):
        d=json.loads(l)
        if 'bad' in d['res']: continue
        if d['id'] not in recs: order.append(d['id'])
        recs[d['id']]=d
out=[]
for extra in notes.get('_first',[]): out.append(extra)
for i in order:
    d=recs[i]; r=d['res']; n=notes.get(i,{})
    failed=r['C']+[x for x in n.get('also_failed',[])]
    out.append({'id':i,'definition':d['definition'],'edit':d['edit'],'claim_broken':d['broke'],
      'first_failing_proofs':[x for x in r['direct'] if not x.endswith('example')][:6],
      'theorems_failed':failed,'examples_failed':len(r['examples']),
      'theorems_tightened':n.get('tightened',[]),**({'note':n['note']} if 'note' in n else {})})
for x in out:
    if not x['theorems_failed'] and x['first_failing_proofs'] and 'note' not in x:
        x['note']='caught: the build fails at these lemmas; the harness could not trace which theorems rest on them (mutual block or killed)'
open(root+'/seeded/LOG.jsonl','w').write(''.join(json.dumps(x,ensure_ascii=False)+'\n' for x in out))
print(len(out),'lines;',[x['id'] for x in out if not x['theorems_failed']])
