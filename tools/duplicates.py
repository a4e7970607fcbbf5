#!/usr/bin/env python3
"""Names declared in more than one module; such modules cannot be imported together."""
import glob, os, re, collections
root = os.path.join(os.path.dirname(os.path.abspath(__file__)), '..', 'lean')
seen = collections.defaultdict(set)
for f in glob.glob(root + '/Verif/**/*.lean', recursive=True):
    stack = []
    for line in open(f):
        if m := re.match(r'namespace (\S+)', line):
            stack.append(m.group(1))
        elif m := re.match(r'(section|mutual)\b', line):
            stack.append(None)
        elif re.match(r'end\b', line):
            if stack:
                stack.pop()
        elif m := re.match(r'(?:@\[[^\]]*\]\s*)?(?:protected |noncomputable )*(?:theorem|def|abbrev|inductive|structure|instance)\s+([^\s:({\[]+)', line):
            seen['.'.join([s for s in stack if s] + [m.group(1)])].add(os.path.relpath(f, root))
for n, fs in sorted(seen.items()):
    if len(fs) > 1:
        print(n, *sorted(fs))
