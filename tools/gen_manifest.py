#!/usr/bin/env python3
"""Collects the theorems named Cnn_* from lean/Verif/*Props.lean and writes MANIFEST.json.
Status and note come from STATUS below (default: proved)."""
import json, os, re, glob
here = os.path.dirname(os.path.abspath(__file__)); root = os.path.join(here, '..')
props = [json.loads(l) for l in open(os.path.join(root, 'properties.jsonl'))]
STATUS = json.load(open(os.path.join(here, 'status.json')))
thms = {}; docs = {}
for f in sorted(glob.glob(os.path.join(root, 'lean/Verif/*Props.lean'))):
    ns = []; text = open(f).read()
    for d, n in re.findall(r'/--((?:(?!-/).)*)-/\s*theorem (C\d+_\S+)', text, re.S):
        docs[n] = ' '.join(d.split())
    for line in text.split('\n'):
        m = re.match(r'namespace (\S+)', line)
        if m: ns.append(m.group(1))
        m = re.match(r'end (\S+)', line)
        if m and ns and ns[-1] == m.group(1): ns.pop()
        m = re.match(r"theorem ((C\d+)_\S+)", line)
        if m: thms.setdefault(m.group(2), []).append('.'.join(ns + [m.group(1)]))
claims = []; missing = []
for p in props:
    i = p['id']
    if i not in thms:
        missing.append(i); continue
    st = STATUS.get(i, {})
    status = st.get('status')
    if status is None:
        status = 'partial' if any(t.endswith('_partial') or t.endswith('_violated') for t in thms[i]) else 'proved'
    note = st.get('note', '')
    if not note and status == 'partial':
        short = [t.split('.')[-1] for t in thms[i]]
        note = ' '.join(f"{t}: {docs.get(t, '')}" for t in short if t.endswith('_partial') or t.endswith('_violated'))
    claims.append({'property': i, 'status': status, 'theorems': thms[i], 'note': note})
json.dump({'claims': claims}, open(os.path.join(root, 'MANIFEST.json'), 'w'), indent=1)
print('missing:', *missing)
print(len(claims), 'claims', sum(len(c['theorems']) for c in claims), 'theorems')
