#!/usr/bin/env python3
"""Writes AXIOMS.md: the axioms each theorem of MANIFEST.json depends on (run after `lake build`)."""
import json, os, re, subprocess, tempfile
root = os.path.dirname(os.path.dirname(os.path.abspath(__file__)))
ts = [t for c in json.load(open(root + '/MANIFEST.json'))['claims'] for t in c['theorems']]
with tempfile.NamedTemporaryFile('w', suffix='.lean', delete=False) as f:
    f.write('import Verif\n' + ''.join('#print axioms %s\n' % t for t in ts))
out = subprocess.run(['lake', 'env', 'lean', f.name], cwd=root + '/lean', capture_output=True, text=True).stdout
os.unlink(f.name)
out = re.sub(r'\s+', ' ', out)
res = {}
for m in re.finditer(r"'([^']+)' (?:depends on axioms: \[([^\]]*)\]|does not depend on any axioms)", out):
    res[m.group(1)] = m.group(2) or 'none'
missing = [t for t in ts if t not in res]
assert not missing, missing
bad = {a for v in res.values() for a in v.split(', ')} - {'propext', 'Classical.choice', 'Quot.sound', 'none'}
assert not bad, bad
with open(root + '/AXIOMS.md', 'w') as g:
    g.write('# Axioms of each theorem\n\nGenerated by `tools/mk_axioms.py` from `#print axioms`.\n\n')
    for t in ts:
        g.write('* `%s`: %s\n' % (t, res[t]))
print(len(ts), 'theorems')
