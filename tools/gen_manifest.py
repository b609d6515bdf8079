#!/usr/bin/env python3
"""Collect the theorems named Cnn_* under lean/Verif/Props and write MANIFEST.json."""
import json,re,glob,os
root=os.path.dirname(os.path.dirname(os.path.abspath(__file__)))
NOTES=json.load(open(root+'/tools/notes.json'))
th={}
for f in sorted(glob.glob(root+'/lean/Verif/Props/*.lean')):
    ns='Verif'
    for l in open(f):
        m=re.match(r'theorem (C(\d+)_\w+)',l)
        if m: th.setdefault('C'+m.group(2),[]).append(ns+'.'+m.group(1))
claims=[]
for l in open(root+'/properties.jsonl'):
    p=json.loads(l)['id']
    ts=th.get(p,[])
    n=NOTES.get(p,{})
    st=n.get('status') or ('partial' if (not ts or any(t.endswith('_partial') for t in ts)) else 'proved')
    claims.append({"property":p,"status":st,"theorems":ts,"note":n.get('note','' if ts else 'not modelled yet')})
json.dump({"claims":claims},open(root+'/MANIFEST.json','w'),indent=1,ensure_ascii=False)
for c in claims: print(c['property'],c['status'],len(c['theorems']))
