#!/usr/bin/env python3
"""Coverage of non-vacuity: for every theorem of MANIFEST.json that has hypotheses (arguments that are propositions, or
hypotheses inside its statement's leading quantifiers), is there a declaration without hypotheses or an `example` whose
proof applies it?
Prints the theorems that are not covered."""
import json,subprocess
M=json.load(open('/verif/MANIFEST.json'))['claims']
ths=list(dict.fromkeys(t for c in M for t in c['theorems']))
src='''import Verif
open Lean Meta
def hyps (e : Expr) : MetaM Nat :=
  forallTelescope e fun xs _ => do
    let mut n := 0
    for x in xs do
      let d ← x.fvarId!.getDecl
      if d.binderInfo.isInstImplicit then continue
      if ← isProp d.type then n := n + 1
    return n
def targets : List Name := [%s]
#eval show MetaM Unit from do
  let env ← getEnv
  let mut closed : Std.HashMap Name Name := {}
  let tset : Std.HashSet Name := Std.HashSet.ofList targets
  for (n, c) in env.constants.map₁.toList do
    if !(`Verif).isPrefixOf n then continue
    let .thmInfo t := c | continue
    let used := (t.value.getUsedConstants).filter fun u => tset.contains u && u != n
    if used.isEmpty then continue
    if (← hyps t.type) == 0 then
      for u in used do closed := closed.insert u n
  for t in targets do
    let some c := env.find? t | logInfo m!"missing {t}"
    let h ← hyps c.type
    if h > 0 then
      match closed[t]? with
      | some w => IO.println s!"COVERED {t} by {w}"
      | none => IO.println s!"UNCOVERED {t}"
    else IO.println s!"NOHYP {t}"
''' % ', '.join('`'+t for t in ths)
open('/tmp/wit.lean','w').write(src)
r=subprocess.run(['lake','env','lean','/tmp/wit.lean'],cwd='/verif/lean',capture_output=True,text=True)
out=r.stdout.split('\n')
import collections,glob,re
ex=[]
for f in glob.glob('/verif/lean/Verif/**/*.lean',recursive=True):
    for m in re.finditer(r'^example(.*?)(?=^(?:theorem|def|example|/--|end|namespace|inductive|structure|abbrev)|\Z)',open(f).read(),re.S|re.M):
        ex+=re.findall(r"[\w.']+",m.group(1))
ex={e.split('.')[-1] for e in ex}
out=['EXAMPLE '+l.split()[1] if l.startswith('UNCOVERED') and l.split('.')[-1] in ex else l for l in out]
print(collections.Counter(l.split(' ')[0] for l in out if l))
for l in out:
    if not l.startswith(('COVERED','NOHYP','EXAMPLE')): print(l)
