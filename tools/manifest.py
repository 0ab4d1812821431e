#!/usr/bin/env python3
"""Write MANIFEST.json from the theorem names in lean/Verif/Props and notes.json."""
import glob, json, os, re
root = os.path.dirname(os.path.dirname(os.path.abspath(__file__)))
thms = {}
for f in sorted(glob.glob(root + '/lean/Verif/Props/*.lean')):
    for m in re.finditer(r'^theorem (C(\d\d+)_\w+)', open(f).read(), re.M):
        thms.setdefault('C' + m.group(2), []).append('ALint.Props.' + m.group(1))
notes = json.load(open(root + '/tools/notes.json'))
claims = []
for line in open(root + '/properties.jsonl'):
    pid = json.loads(line)['id']
    names = thms.get(pid, [])
    note = notes.get(pid)
    if note and note[0] == 'not_applicable':
        claims.append({'property': pid, 'status': 'not_applicable', 'theorems': [], 'note': note[1]})
        continue
    if not names:
        print('no theorems for', pid)
        continue
    if note is None:
        print('no note for', pid)
        continue
    status = note[0]
    if status == 'proved' and any(n.endswith('_partial') or '_violated' in n for n in names):
        print('status?', pid)
    claims.append({'property': pid, 'status': status, 'theorems': names, 'note': note[1]})
json.dump({'claims': claims}, open(root + '/MANIFEST.json', 'w'), indent=1, ensure_ascii=False)
print(len(claims), 'claims', sum(c['status'] == 'proved' for c in claims), 'proved',
      sum(len(c['theorems']) for c in claims), 'theorems')
