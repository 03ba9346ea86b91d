#!/usr/bin/env python3
"""Regenerate MANIFEST.json and lean/Verif/Axioms.lean from the property files.

Every theorem named Cnn or Cnn_... in lean/Verif/Props is listed under property Cnn.  Status and note of a
property come from tools/status.json; a property without theorems is left out."""
import glob, json, os, re
root = os.path.dirname(os.path.dirname(os.path.abspath(__file__)))
status = json.load(open(root + '/tools/status.json'))
ids = [json.loads(l)['id'] for l in open(root + '/properties.jsonl') if l.strip()]
thms, mods = {}, []
for f in sorted(glob.glob(root + '/lean/Verif/Props/*.lean')):
    mods.append('Verif.Props.' + os.path.basename(f)[:-5])
    ns = 'Thpronun'
    for m in re.finditer(r"^theorem (C\d+)((?:_[\w']+)?)(?![\w'])", open(f).read(), re.M):
        thms.setdefault(m[1], []).append(ns + '.' + m[1] + m[2])
claims = []
for i in ids:
    st = status.get(i, {})
    if i not in thms and st.get('status') != 'not_applicable':
        continue
    claims.append({'property': i, 'status': st.get('status', 'proved'),
                   'theorems': thms.get(i, []), 'note': st.get('note', '')})
with open(root + '/MANIFEST.json', 'w') as o:
    json.dump({'claims': claims}, o, indent=1, ensure_ascii=False)
    o.write('\n')
with open(root + '/lean/Verif/Axioms.lean', 'w') as o:
    for m in mods:
        o.write('import ' + m + '\n')
    o.write('''import Lean.Util.CollectAxioms
import Lean.Elab.Command

/-! # Axioms of every property theorem (generated by tools/manifest.py)

`#axioms_ok t` fails unless `t` depends on no axioms but `propext`, `Classical.choice` and
`Quot.sound`. -/

open Lean Elab Command in
elab "#axioms_ok " id:ident : command => do
  let n ← liftCoreM <| realizeGlobalConstNoOverloadWithInfo id
  let axs ← liftCoreM <| collectAxioms n
  for a in axs do
    unless a == ``propext || a == ``Classical.choice || a == ``Quot.sound do
      throwError "{n} depends on {a}"

''')
    for i in ids:
        for t in thms.get(i, []):
            o.write('#axioms_ok ' + t + '\n')
