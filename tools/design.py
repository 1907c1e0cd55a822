#!/usr/bin/env python3
"""Fills the generated part of DESIGN.md: one line per proved negation (theorems named *_counterexample)
with its doc comment."""
import re, os, glob
ROOT = os.path.join(os.path.dirname(os.path.abspath(__file__)), '..')
rows = []
for f in sorted(glob.glob(ROOT + '/lean/Verif/**/*.lean', recursive=True)):
    s = open(f).read()
    for m in re.finditer(r'theorem (C\d+_\w*counterexample\w*)', s):
        doc = ''
        pre = s[:m.start()].rstrip()
        if pre.endswith('-/'):
            i = pre.rfind('/--')
            doc = ' '.join(pre[i+3:-2].split())
        rows.append((int(re.match(r'C(\d+)', m.group(1)).group(1)), m.group(1), doc, os.path.relpath(f, ROOT)))
rows.sort(key=lambda r: (r[0], r[1]))
out = ['<!-- generated by tools/design.py -->', '', '| theorem | what it shows |', '|---|---|']
for _, n, d, f in rows:
    out.append('| `%s` | %s |' % (n, d.replace('|', '\\|')))
out.append('')
p = ROOT + '/DESIGN.md'
s = open(p).read()
a = s.index('<!-- generated by tools/design.py -->')
b = s.index('<!-- end of generated part -->')
open(p, 'w').write(s[:a] + '\n'.join(out) + s[b:])
print(len(rows), 'findings;', sum(1 for r in rows if not r[2]), 'without comment:', [r[1] for r in rows if not r[2]])
