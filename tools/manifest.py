#!/usr/bin/env python3
"""Regenerate MANIFEST.json from the theorem names in lean/Verif/Props and the notes below."""
import json, re, glob, os
os.chdir(os.path.join(os.path.dirname(__file__), '..'))
thms = {}
docs = {}
for f in sorted(glob.glob('lean/Verif/Props/*.lean')):
    for m in re.finditer(r'/--((?:(?!-/).)*)-/\s*theorem (C\d+\S*)', open(f).read(), re.S):
        docs[m.group(2)] = ' '.join(m.group(1).replace('**', '').split())
    ns = []
    for line in open(f):
        m = re.match(r'namespace (\S+)', line)
        if m: ns.append(m.group(1))
        m = re.match(r'end (\S+)', line)
        if m and ns and ns[-1] == m.group(1): ns.pop()
        m = re.match(r'(?:private |protected |noncomputable )?theorem (C\d+)(\S*)', line)
        if m:
            thms.setdefault(m.group(1), []).append('.'.join(ns + [m.group(1) + m.group(2)]))
notes = json.load(open('tools/notes.json')) if os.path.exists('tools/notes.json') else {}
claims = []
for l in open('properties.jsonl'):
    pid = json.loads(l)['id']
    if pid not in thms:
        continue
    n = notes.get(pid, {})
    t = thms[pid]
    status = n.get('status') or ('partial' if any(x.endswith('_partial') for x in t) else 'proved')
    claims.append({'property': pid, 'status': status, 'theorems': t, 'note': n.get('note') or ' | '.join(x.split('.')[-1] + ': ' + docs[x.split('.')[-1]] for x in t if x.split('.')[-1] in docs)})
json.dump({'claims': claims}, open('MANIFEST.json', 'w'), indent=1)
print(len(claims), 'claims;', [c['property'] for c in claims if c['status'] == 'partial'])
missing = [json.loads(l)['id'] for l in open('properties.jsonl') if json.loads(l)['id'] not in thms]
print('missing:', missing)
