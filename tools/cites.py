#!/usr/bin/env python3
"""Check (and with --fix repair) citations of the form  path.go:a-b `Func`  or path.go:a-b `Type.Method`
in the Lean sources against the declarations in /repo."""
import re, sys, glob
decl = {}
for f in glob.glob('/repo/**/*.go', recursive=True):
    if f.endswith('_test.go'): continue
    ls = open(f).read().split('\n')
    for i, l in enumerate(ls):
        m = re.match(r'func (?:\((?:\w+ )?\*?(\w+)(?:\[.*?\])?\) )?(\w+)', l)
        if not m: continue
        j = i
        if not l.rstrip().endswith('}') or l.rstrip().endswith('{'):
            j = i + 1
            while j < len(ls) and ls[j] != '}': j += 1
        n = m.group(2) if not m.group(1) else m.group(1) + '.' + m.group(2)
        decl[(f[6:], n)] = (i + 1, j + 1)
pat = re.compile(r'([\w/]+\.go):(\d+)(?:-(\d+))? `([\w.]+)`')
bad = 0
for f in glob.glob('/verif/lean/Verif/**/*.lean', recursive=True):
    s = open(f).read()
    def rep(m):
        global bad
        d = decl.get((m.group(1), m.group(4)))
        if d is None:
            c = [v for (g, n), v in decl.items() if g == m.group(1) and n.split('.')[-1] == m.group(4)]
            if len(c) == 1: d = c[0]
        if d is None:
            if '--v' in sys.argv: print('no decl', f, m.group(0))
            return m.group(0)
        a, b = int(m.group(2)), int(m.group(3) or m.group(2))
        if (a, b) != d:
            bad += 1
            print(f[18:], m.group(0), '->', d)
            return f'{m.group(1)}:{d[0]}-{d[1]} `{m.group(4)}`'
        return m.group(0)
    t = pat.sub(rep, s)
    if '--fix' in sys.argv and t != s: open(f, 'w').write(t)
for f in glob.glob('/verif/lean/Verif/**/*.lean', recursive=True):
    for m in re.finditer(r'([\w/]+\.go):(\d+)(?:-(\d+))?', open(f).read()):
        try: n = len(open('/repo/' + m.group(1)).read().split('\n'))
        except FileNotFoundError: n = 0
        if not (0 < int(m.group(2)) <= int(m.group(3) or m.group(2)) <= n):
            bad += 1
            print(f[18:], m.group(0), 'out of file')
print('bad', bad)
