#!/usr/bin/env python3
"""Write AXIOMS.md: the axioms every theorem of MANIFEST.json depends on (needs a finished
`lake build`)."""
import collections, json, os, re, subprocess, tempfile
root = os.path.dirname(os.path.dirname(os.path.abspath(__file__)))
names = [t for c in json.load(open(root + '/MANIFEST.json'))['claims'] for t in c['theorems']]
with tempfile.TemporaryDirectory() as d:
    f = d + '/a.lean'
    open(f, 'w').write('import Verif\n' + ''.join('#print axioms %s\n' % n for n in names))
    out = subprocess.run(['lake', 'env', 'lean', f], cwd=root + '/lean', capture_output=True, text=True).stdout
res = {}
for m in re.finditer(r"'(\S+?)' (?:depends on axioms: \[([^\]]*)\]|does not depend on any axioms)", out):
    res[m.group(1)] = ', '.join(sorted(x.strip() for x in (m.group(2) or '').split(',') if x.strip())) or 'none'
groups = collections.OrderedDict()
for n in names:
    groups.setdefault(res[n], []).append(n.replace('ALint.Props.', ''))
with open(root + '/AXIOMS.md', 'w') as f:
    f.write('# Axioms of the property theorems\n\nWritten by `tools/axioms.py` from `#print axioms`.  '
            'All names are in the namespace `ALint.Props`.\n')
    for k, v in sorted(groups.items()):
        f.write('\n## %s (%d theorems)\n\n' % ('No axioms' if k == 'none' else k, len(v)))
        f.write(', '.join(v) + '\n')
print({k: len(v) for k, v in groups.items()})
