#!/usr/bin/env python3
"""Lists functions of /repo/src which no definition of the model cites."""
import glob, os, re

root = os.path.join(os.path.dirname(os.path.abspath(__file__)), '..')
cited = {}
for f in glob.glob(root + '/lean/Verif/Model/*.lean'):
    last = None
    for m in re.finditer(r'(src/[\w/]+\.rs)|[:, ](\d+)(?:-(\d+))?\b', open(f).read()):
        if m.group(1):
            last = m.group(1)
        elif last:
            a = int(m.group(2))
            b = int(m.group(3) or a)
            if b - a < 300:
                cited.setdefault(last, set()).update(range(a, b + 1))
total = done = 0
for f in sorted(glob.glob('/repo/src/**/*.rs', recursive=True)):
    rel = f[len('/repo/'):]
    lines = open(f).read().split('\n')
    c = cited.get(rel, set())
    for i, l in enumerate(lines, 1):
        if re.match(r'\s*mod test', l):
            break
        m = re.match(r'\s*(?:pub(?:\(\w+\))? )?(?:const )?fn (\w+)', l)
        if m:
            total += 1
            if i in c or i + 1 in c:
                done += 1
            else:
                print(f'{rel}:{i}: {l.strip()[:100]}')
print(f'{done} of {total} functions cited')
