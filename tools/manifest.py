#!/usr/bin/env python3
"""Writes MANIFEST.json: the theorems named Cnn_* in lean/Verif/Props, with status and notes below."""
import json,re,glob,os
os.chdir(os.path.dirname(os.path.abspath(__file__))+"/..")
PARTIAL={}   # id -> what is missing
NOTES={}
NA={}
exec(open("tools/notes.py").read())
th={}
for f in sorted(glob.glob("lean/Verif/Props/*.lean")):
    for m in re.finditer(r"^(?:protected )?theorem (C(\d\d)_\w+)",open(f).read(),re.M):
        th.setdefault("C"+m.group(2),[]).append("Granne."+m.group(1))
claims=[]
for line in open("properties.jsonl"):
    i=json.loads(line)["id"]
    if i in NA: claims.append(dict(property=i,status="not_applicable",theorems=[],note=NA[i])); continue
    if i not in th: continue
    claims.append(dict(property=i,status="partial" if i in PARTIAL else "proved",theorems=th[i],note=PARTIAL.get(i,NOTES.get(i,""))))
json.dump({"claims":claims},open("MANIFEST.json","w"),indent=1,ensure_ascii=False)
print(len(claims),"claims", sum(len(c["theorems"]) for c in claims),"theorems")
