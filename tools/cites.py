"""Print, for each definition in lean/Verif/Model, the cited lines' first source line (to check citations by eye)."""
import re,glob,os,sys
files={}
for root,_,fs in os.walk('/repo'):
    if '/.git' in root or '/build' in root or '/test' in root or '/bench' in root: continue
    for f in fs:
        if f.endswith(('.hpp','.cpp','.h')): files.setdefault(f,[]).append(os.path.join(root,f))
LAST={}
def find(path):
    b=os.path.basename(path)
    c=find0(path)
    if len(c)==1: LAST[b]=c
    elif b==path and b in LAST: return LAST[b]
    return c
def find0(path):
    b=os.path.basename(path)
    c=files.get(b,[])
    if len(c)>1:
        tail=[x for x in path.replace('…','').split('/') if x]
        best=[x for x in c if all(t in x for t in tail)]
        if len(best)==1: return best
        if path.startswith('src') : best=[x for x in c if '/src/' in x]
        if len(best)==1: return best
        return best or c
    return c
for m in sorted(glob.glob('/verif/lean/Verif/Model/*.lean') if len(sys.argv)<2 else sys.argv[1:]):
    print('=====',os.path.basename(m))
    s=open(m).read()
    for d in re.finditer(r'/-[-!](.*?)-/\s*(.*)',s,re.S):
        pass
    for d in re.finditer(r'/-[-!]((?:(?!-/).)*)-/\s*([^\n]*)',s,re.S):
        doc,decl=d.group(1),d.group(2)
        cur=None
        for t in re.finditer(r'([\w/…\.\*-]+\.(?:hpp|cpp)):(\d+)(?:-(\d+))?((?:, \d+(?:-\d+)?)*)|\((\d+)-(\d+)\)',doc):
            if t.group(1):
                cur=t.group(1); rng=[(int(t.group(2)),int(t.group(3) or t.group(2)))]
                for x in re.findall(r', (\d+)(?:-(\d+))?',t.group(4) or ''): rng.append((int(x[0]),int(x[1] or x[0])))
            elif cur: rng=[(int(t.group(5)),int(t.group(6)))]
            else: continue
            c=find(cur)
            for a,b in rng:
                if len(c)!=1: print('??',cur,a,b,len(c),'|',decl[:60]); continue
                L=open(c[0]).read().split('\n')
                if b>len(L): print('!! beyond EOF',cur,a,b,'|',decl[:60]); continue
                print(f"{decl[:48]:48} | {os.path.basename(cur)}:{a}-{b} | {L[a-1].strip()[:70]} ... {L[b-1].strip()[:20]}")
