"""Update MANIFEST.json: read lines 'ID|status|theorems space-separated|note' from stdin."""
import json,sys,os
p='/verif/MANIFEST.json'
d=json.load(open(p)) if os.path.exists(p) else {"claims":[]}
by={c["property"]:c for c in d["claims"]}
for l in sys.stdin:
    l=l.strip()
    if not l: continue
    i,st,th,note=l.split("|",3)
    by[i.strip()]={"property":i.strip(),"status":st.strip(),"theorems":th.split(),"note":note.strip()}
d["claims"]=[by[k] for k in sorted(by,key=lambda x:int(x[1:]))]
json.dump(d,open(p,'w'),indent=1,ensure_ascii=False); open(p,'a').write("\n")
