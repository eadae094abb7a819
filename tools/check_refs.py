#!/usr/bin/env python3
"""Lists citations of /repo in the model whose lines do not contain any of the names the comment mentions."""
import re, glob, os
root = os.path.dirname(os.path.dirname(os.path.abspath(__file__)))
cache = {}
def lines(p):
    if p not in cache:
        f = os.path.join('/repo', p)
        cache[p] = open(f).read().split('\n') if os.path.exists(f) else None
    return cache[p]
bad = total = 0
for f in sorted(glob.glob(root + '/lean/Verif/Model/*.lean')):
    s = open(f).read()
    for m in re.finditer(r'/-[-!](.*?)-/', s, re.S):
        c = m.group(1)
        names = [w for t in re.findall(r'`([^`]+)`', c) for w in re.findall(r'[A-Za-z_]{4,}', t)]
        for r in re.finditer(r'((?:socket|adapter)/[\w.-]+\.go):(\d+)(?:-(\d+))?', c):
            total += 1
            p, a, b = r.group(1), int(r.group(2)), int(r.group(3) or r.group(2))
            L = lines(p)
            ln = s.count('\n', 0, m.start() + 3 + r.start()) + 1
            if L is None or b > len(L):
                print(f'{f[len(root)+1:]}:{ln}: {r.group(0)}: no such lines'); bad += 1; continue
            text = '\n'.join(L[a-1:b])
            # enclosing function
            i = a - 1
            while i > 0 and not L[i].startswith('func'): i -= 1
            if names and not any(n in text for n in names):
                print(f'{f[len(root)+1:]}:{ln}: {r.group(0)}: {L[i].strip()[:70]} | names {names[:6]}'); bad += 1
print(bad, 'of', total)
