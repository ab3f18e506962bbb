import json,sys
p='/verif/scripts/claims.json'
d=json.load(open(p))
new=json.load(sys.stdin)
d.update(new)
with open(p,'w') as f:
    f.write("{\n"+",\n".join(json.dumps(k)+": "+json.dumps(d[k]) for k in sorted(d))+"\n}\n")
