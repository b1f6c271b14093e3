#!/usr/bin/env python3
"""amend.py Cxx 'thm1,thm2' 'old note text' 'new note text' – append theorems to one MANIFEST entry and edit its note."""
import json, sys
p='/verif/MANIFEST.json'
m=json.load(open(p))
c=next(x for x in m['claims'] if x['property']==sys.argv[1])
c['theorems']+=[t for t in sys.argv[2].split(',') if t and t not in c['theorems']]
if len(sys.argv)>4:
    assert sys.argv[3] in c['note'], c['note']
    c['note']=c['note'].replace(sys.argv[3],sys.argv[4])
elif len(sys.argv)>3: c['note']=(c['note']+' '+sys.argv[3]).strip()
open(p,'w').write('{"claims": [\n'+',\n'.join(' '+json.dumps(x) for x in m['claims'])+'\n]}\n')
