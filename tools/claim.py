#!/usr/bin/env python3
"""usage: claim.py ID status thm1,thm2 note  -- update MANIFEST.json (names are Verif.-prefixed unless they start with Verif)"""
import json,sys,os
p='/verif/MANIFEST.json'
m=json.load(open(p)) if os.path.exists(p) else {"claims":[]}
i,st,th,note=sys.argv[1:5]
th=[t if t.startswith('Verif.') else 'Verif.'+t for t in th.split(',') if t]
m['claims']=[c for c in m['claims'] if c['property']!=i]+[{"property":i,"status":st,"theorems":th,"note":note}]
m['claims'].sort(key=lambda c:c['property'])
json.dump(m,open(p,'w'),indent=1,ensure_ascii=False)
