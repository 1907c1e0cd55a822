#!/usr/bin/env python3
"""Generates MANIFEST.json: collects theorems named C<nn>_* from lean/Verif/**/Props*.lean and
merges the status/note table below (tools/status.py)."""
import re, json, os, glob, collections
ROOT = os.path.join(os.path.dirname(os.path.abspath(__file__)), '..')
th = collections.OrderedDict()
for f in sorted(glob.glob(ROOT + '/lean/Verif/**/*.lean', recursive=True)):
    ns = []
    depth = 0
    for line in open(f):
        m = re.match(r'\s*namespace\s+(\S+)', line)
        if m: ns.append(m.group(1)); continue
        m = re.match(r'\s*end\s+(\S+)\s*$', line)
        if m and ns and ns[-1] == m.group(1): ns.pop(); continue
        m = re.match(r'(?:protected )?theorem\s+(C\d\d+_\S+)', line)
        if m:
            name = m.group(1)
            pid = name.split('_')[0]
            th.setdefault(pid, []).append('.'.join(ns + [name]))
status = {}
exec(open(os.path.join(os.path.dirname(os.path.abspath(__file__)), 'status.py')).read())
claims = []
for line in open(ROOT + '/properties.jsonl'):
    pid = json.loads(line)['id']
    names = th.get(pid, [])
    if pid in status: st, note = status[pid]
    elif names: st, note = None, ''
    else: continue
    if st is None:
        st = 'partial' if any('_partial' in n or 'counterexample' in n for n in names) else 'proved'
    claims.append(dict(property=pid, status=st, theorems=names, note=note))
json.dump({'claims': claims}, open(ROOT + '/MANIFEST.json', 'w'), indent=1, ensure_ascii=False)
print(len(claims), 'claims', sum(len(c['theorems']) for c in claims), 'theorems')
