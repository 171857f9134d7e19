#!/usr/bin/env python3
"""regenerate lean/Verif.lean"""
import os,glob
mods=sorted(os.path.relpath(x,'/verif/lean')[:-5].replace('/','.') for x in glob.glob('/verif/lean/Verif/**/*.lean',recursive=True))
open('/verif/lean/Verif.lean','w').write('\n'.join('import '+m for m in mods)+'\n')
