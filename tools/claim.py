#!/usr/bin/env python3
"""claim.py Cxx status 'thm1,thm2' 'note' – insert or replace one MANIFEST entry."""
import json, sys
p='/verif/MANIFEST.json'
m=json.load(open(p))
c={"property":sys.argv[1],"status":sys.argv[2],"theorems":sys.argv[3].split(','),"note":sys.argv[4] if len(sys.argv)>4 else ""}
l=[x for x in m['claims'] if x['property']!=c['property']]+[c]
l.sort(key=lambda x:x['property'])
open(p,'w').write('{"claims": [\n'+',\n'.join(' '+json.dumps(x) for x in l)+'\n]}\n')
