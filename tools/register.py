#!/usr/bin/env python3
"""register.py < JSON – one new property: properties.jsonl, MANIFEST.json, Verif.lean imports and the DESIGN.md row in one go.
Keys: those of properties.jsonl, and status, theorems, note, modules (list), model, method, defect (optional)."""
import json, subprocess, sys
r='/verif/'
d=json.load(sys.stdin)
p={k:d[k] for k in ['id','title','statement','quantifier','why_tests_cant','anchors']}
subprocess.run(['python3',r+'tools/prop.py'],input=json.dumps(p)+'\n',text=True,check=True)
subprocess.run(['python3',r+'tools/claim.py',d['id'],d['status'],','.join(d['theorems']),d['note']],check=True)
v=open(r+'lean/Verif.lean').read()
for mod in d['modules']:
    l='import Verif.'+mod
    if l not in v.split('\n'): v=v.rstrip('\n')+'\n'+l+'\n'
open(r+'lean/Verif.lean','w').write(v)
s=open(r+'DESIGN.md').read().split('\n')
row='| %s | %s | %s |'%(d['id'],d['model'],d['method'])
old=[k for k,l in enumerate(s) if l.startswith('| %s |'%d['id'])]
if old: s[old[0]]=row
else:
    i=max(k for k,l in enumerate(s) if l.startswith('| C'))
    s.insert(i+1,row)
if d.get('defect'):
    b='* %s %s'%(d['id'],d['defect'])
    if b not in s:
        j=max(k for k,l in enumerate(s) if l.startswith('* C'))
        while j+1<len(s) and s[j+1].startswith('  '): j+=1
        s.insert(j+1,b)
open(r+'DESIGN.md','w').write('\n'.join(s))
