#!/usr/bin/env python3
"""prop.py < JSON lines – insert or replace entries of properties.jsonl."""
import json, sys
p='/verif/properties.jsonl'
l=[json.loads(x) for x in open(p) if x.strip()]
for x in sys.stdin:
    if not x.strip(): continue
    n=json.loads(x)
    l=[y for y in l if y['id']!=n['id']]+[n]
l.sort(key=lambda y:y['id'])
open(p,'w').write(''.join(json.dumps(x)+'\n' for x in l))
