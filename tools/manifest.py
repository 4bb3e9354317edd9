#!/usr/bin/env python3
"""Regenerate MANIFEST.json from the theorem names in lean/Verif/Props (run from /verif)."""
import json, re, glob, os
notes = json.load(open('tools/notes.json')) if os.path.exists('tools/notes.json') else {}
thms = {}
for f in sorted(glob.glob('lean/Verif/Props/*.lean')):
    ns = []
    for l in open(f):
        m = re.match(r'namespace (\S+)', l)
        if m: ns.append(m.group(1))
        m = re.match(r'end (\S+)', l)
        if m and ns and ns[-1] == m.group(1): ns.pop()
        m = re.match(r'theorem (C(\d\d+)_\w+)', l)
        if m: thms.setdefault('C' + m.group(2), []).append('.'.join(ns) + '.' + m.group(1))
# properties that collect clauses proved under other properties
extra = json.load(open('tools/extra.json')) if os.path.exists('tools/extra.json') else {}
full = {x.split('.')[-1]: x for v in thms.values() for x in v}
claims = []
for l in open('properties.jsonl'):
    p = json.loads(l)['id']
    t = thms.get(p, []) + [full[x] for x in extra.get(p, {}).get('theorems', [])]
    n = notes.get(p, {})
    if 'status' in n: st = n['status']
    elif not t: st = 'partial'
    elif any('_violated' in x or x.endswith('_partial') for x in t): st = 'partial'
    else: st = 'proved'
    note = n.get('note', '')
    if not note:
        v = [x for x in t if '_violated' in x]
        if v: note = 'The full statement is false of the code: negation proved in ' + ', '.join(x.split('.')[-1] for x in v) + '; the parts that hold are proved.'
        elif not t: note = 'Not modelled yet.'
        elif p in extra: note = 'The clauses of ' + ' and '.join(extra[p]['of']) + ' that hold without exception; what does not hold is recorded there.'
    claims.append({'property': p, 'status': st, 'theorems': t, 'note': note})
json.dump({'claims': claims}, open('MANIFEST.json', 'w'), indent=1)
print({s: sum(c['status'] == s for c in claims) for s in ('proved', 'partial', 'not_applicable')}, 'without theorems:', [c['property'] for c in claims if not c['theorems']])
