#!/usr/bin/env python3
"""Source of /verif/MANIFEST.json (run to regenerate). Theorem names are collected from
lean/Verif/Props by their Cnn_ prefix."""
import json,re,glob,sys
props=[json.loads(l)["id"] for l in open("/verif/properties.jsonl")]
th={}
for f in sorted(glob.glob("/verif/lean/Verif/Props/*.lean")):
    for m in re.finditer(r"^theorem ((C\d\d+)_\w+)",open(f).read(),re.M):
        th.setdefault(m.group(2),[]).append("Verif.Props."+m.group(1))
NOTES={}
exec(open("/verif/tools/notes.py").read())
claims=[]
for p in props:
    t=th.get(p,[])
    st="partial" if (not t or any(x.endswith("_partial") for x in t) or p in PARTIAL) else "proved"
    if not t: 
        claims.append(dict(property=p,status="partial",theorems=[],note=NOTES.get(p,"not yet proved")))
        continue
    claims.append(dict(property=p,status=st,theorems=t,note=NOTES.get(p,"")))
json.dump(dict(claims=claims),open("/verif/MANIFEST.json","w"),indent=1,ensure_ascii=False)
print(sum(c["status"]=="proved" for c in claims),"proved of",len(claims))
