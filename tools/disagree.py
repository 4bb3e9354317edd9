#!/usr/bin/env python3
"""Regenerates section 4 of DESIGN.md from the doc comments of the `_violated` theorems."""
import re, glob
rows = []
for f in sorted(glob.glob('/verif/lean/Verif/Props/*.lean')):
    s = open(f).read()
    for m in re.finditer(r'/--((?:(?!-/).)*)-/\s*theorem (C\d\d\S*_violated\S*)', s, re.S):
        d = ' '.join(m.group(1).split()).replace('**', '')
        rows.append((m.group(2), f.split('/')[-1], d))
rows.sort()
out = ['## 4. Known disagreements between code and properties', '',
       'Each entry is a theorem of this development: the negation of (part of) a property, on a witness or for a',
       'whole class of inputs. The positive remainder of each property is in its `_partial` theorem(s).', '']
for n, f, d in rows:
    out.append(f'* `{n}` ({f}): {d}')
s = open('/verif/DESIGN.md').read()
i = s.index('## 4. Known')
j = s.find('\n## 5.', i)
tail = s[j:] if j >= 0 else ''
open('/verif/DESIGN.md', 'w').write(s[:i] + '\n'.join(out) + '\n' + tail)
print(len(rows))
