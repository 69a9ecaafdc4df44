#!/usr/bin/env python3
"""Writes DESIGN.md from tools/design_head.md, properties.jsonl, tools/plans.json and MANIFEST.json."""
import json
P=[json.loads(l) for l in open('/verif/properties.jsonl')]
plans=json.load(open('/verif/tools/plans.json'))
M={c['property']:c for c in json.load(open('/verif/MANIFEST.json'))['claims']}
out=open('/verif/tools/design_head.md').read()
out+="\n## Per property: plan and outcome\n\n| id | property | how it is modelled and proved | outcome |\n|---|---|---|---|\n"
for p in P:
    c=M.get(p['id'])
    o="(open)" if c is None else c['status']+(": "+c['note'] if c['note'] else "")
    out+="| %s | %s | %s | %s |\n"%(p['id'],p['title'],plans.get(p['id'],''),o.replace('|','/'))
out+="\nThe theorem names are in MANIFEST.json.\n"
open('/verif/DESIGN.md','w').write(out)
