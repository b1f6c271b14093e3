"""Write AXIOMS.md: for every theorem named in MANIFEST.json the axioms it depends on (via Lean's own axiom collector)."""
import json,subprocess,tempfile,os,re
root=os.path.dirname(os.path.dirname(os.path.abspath(__file__)))
claims=json.load(open(root+'/MANIFEST.json'))['claims']
names=[(c['property'],t) for c in claims for t in c['theorems']]
src='import Verif\nopen NeoFOAM\n'+''.join(f'#print axioms {t}\n' for _,t in names)
with tempfile.NamedTemporaryFile('w',suffix='.lean',delete=False) as f: f.write(src)
out=subprocess.run(['lake','env','lean',f.name],cwd=root+'/lean',capture_output=True,text=True).stdout
os.unlink(f.name)
got={}
for m in re.finditer(r"'([^']+)' (does not depend on any axioms|depends on axioms: \[([^\]]*)\])",out.replace('\n ',' ')):
    got[m.group(1).split('NeoFOAM.')[-1]]=sorted(x.strip() for x in (m.group(3) or '').split(',') if x.strip())
groups={}
for p,t in names:
    a=got.get(t)
    assert a is not None,t
    groups.setdefault(', '.join(a) or '(none)',[]).append((p,t))
ok={'propext','Classical.choice','Quot.sound'}
assert all(set(x for x in k.split(', ') if x!='(none)')<=ok for k in groups),groups.keys()
with open(root+'/AXIOMS.md','w') as f:
    f.write('# Axioms of the claimed theorems\n\nGenerated by `tools/axioms.py` from `#print axioms`.\n')
    for k in sorted(groups):
        f.write(f'\n## {k}\n\n'); 
        for p,t in groups[k]: f.write(f'* {p} `{t}`\n')
print({k:len(v) for k,v in groups.items()})
