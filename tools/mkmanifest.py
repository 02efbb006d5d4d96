#!/usr/bin/env python3
"""Write MANIFEST.json and lean/Verif/Audit.lean from the claims listed in tools/claims.py.

The theorem names of a property are collected from lean/Verif/Props: every theorem whose name
starts with the property id."""
import json, re, glob, os
here = os.path.dirname(os.path.abspath(__file__))
root = os.path.dirname(here)
ns = {}
exec(open(os.path.join(here, 'claims.py')).read(), ns)
notes = ns['CLAIMS']
thms = {}
mods = []
for f in sorted(glob.glob(os.path.join(root, 'lean/Verif/Props/*.lean'))):
    mods.append('Verif.Props.' + os.path.basename(f)[:-5])
    for m in re.finditer(r'^theorem (C\d{2,3}_\S+)', open(f).read(), re.M):
        thms.setdefault(m.group(1).split('_')[0], []).append('BNS.' + m.group(1))
claims = []
for line in open(os.path.join(root, 'properties.jsonl')):
    pid = json.loads(line)['id']
    if pid in notes:
        st, note = notes[pid]
        claims.append({'property': pid, 'status': st, 'theorems': thms.get(pid, []), 'note': note})
        if st != 'not_applicable':
            assert thms.get(pid), pid
for pid in thms:
    assert pid in notes, pid
json.dump({'claims': claims}, open(os.path.join(root, 'MANIFEST.json'), 'w'), indent=1)
with open(os.path.join(root, 'lean/Verif/Audit.lean'), 'w') as g:
    for m in mods:
        g.write(f'import {m}\n')
    g.write('\n/-! Axioms of every property theorem (generated by tools/mkmanifest.py). -/\n\n')
    for pid in sorted(thms, key=lambda p: int(p[1:])):
        for t in thms[pid]:
            g.write(f'#print axioms {t}\n')
allmods = []
for f in sorted(glob.glob(os.path.join(root, 'lean/Verif/**/*.lean'), recursive=True)):
    allmods.append(os.path.relpath(f, os.path.join(root, 'lean'))[:-5].replace('/', '.'))
with open(os.path.join(root, 'lean/Verif.lean'), 'w') as g:
    for m in allmods:
        g.write(f'import {m}\n')
print(len(claims), 'claims', sum(len(v) for v in thms.values()), 'theorems')
