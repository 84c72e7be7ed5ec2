"""Append/replace properties: stdin lines are JSON objects."""
import json,sys
p='/verif/properties.jsonl'
by={}
for l in open(p):
    if l.strip():
        o=json.loads(l); by[o["id"]]=o
for l in sys.stdin:
    if l.strip():
        o=json.loads(l); by[o["id"]]=o
with open(p,'w') as f:
    for k in sorted(by,key=lambda x:int(x[1:])): f.write(json.dumps(by[k],ensure_ascii=False)+"\n")
print(len(by))
