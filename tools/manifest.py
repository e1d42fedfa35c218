#!/usr/bin/env python3
"""Regenerate MANIFEST.json and lean/Verif.lean from the sources.

Property theorems live in lean/Verif/Props and are named Cxx_...; a theorem whose name ends in
_partial, or a refutation (_false), makes the property "partial".  Notes come from tools/notes.json.
"""
import json, pathlib, re

root = pathlib.Path(__file__).resolve().parent.parent
lean = root / 'lean'
mods = sorted(p for p in (lean / 'Verif').rglob('*.lean'))
(lean / 'Verif.lean').write_text(''.join(
    'import ' + '.'.join(p.relative_to(lean).with_suffix('').parts) + '\n' for p in mods))
notes = json.loads((root / 'tools' / 'notes.json').read_text())
ths = {}
for p in mods:
    if 'Props' not in p.parts: continue
    for m in re.finditer(r'^theorem ((C\d\d+)_\S+)', p.read_text(), re.M):
        ths.setdefault(m.group(2), []).append('Props.' + m.group(1))
claims = []
for line in (root / 'properties.jsonl').read_text().splitlines():
    pid = json.loads(line)['id']
    t = ths.get(pid)
    if not t: continue
    part = any(n.endswith('_partial') or '_false' in n for n in t)
    claims.append({'property': pid, 'status': 'partial' if part else 'proved', 'theorems': t,
                   'note': notes.get(pid, '')})
(root / 'MANIFEST.json').write_text(json.dumps({'claims': claims}, indent=1) + '\n')
print(len(claims), 'claims')
missing = [json.loads(l)['id'] for l in (root / 'properties.jsonl').read_text().splitlines()
           if json.loads(l)['id'] not in ths]
print('missing', missing)
