"""Checks that anchors and file:line citations point at existing files, symbols and lines of /repo."""
import glob, json, os, re
R = '/repo/'
files = {}
for root in ('include', 'src', 'bindings', 'gar', 'tests'):
    for d, _, fs in os.walk(R + root):
        for f in fs:
            files.setdefault(f, []).append(os.path.join(d, f))
bad = 0
for l in open('/verif/properties.jsonl'):
    d = json.loads(l)
    for a in d['anchors']:
        f, _, syms = a.partition(':')
        if not os.path.isfile(R + f.strip()):
            print(d['id'], 'no file', f); bad += 1; continue
        t = open(R + f.strip(), errors='replace').read()
        for s in re.findall(r'[A-Za-z_][A-Za-z_0-9]{3,}', re.sub(r'\([^)]*\)', '', syms)):
            if s not in t:
                print(d['id'], f, 'missing', s); bad += 1
n = 0
for p in sorted(glob.glob('/verif/lean/Verif/**/*.lean', recursive=True)):
    t = open(p).read()
    for m in re.finditer(r'([\w./-]+\.(?:hpp|hxx|cpp|txx)):\s*(\d+(?:-\d+)?(?:,\s*\d+(?:-\d+)?)*)', t):
        cand = [c for c in files.get(os.path.basename(m[1]), []) if c.endswith('/' + m[1])]
        if not cand:
            print(os.path.basename(p), 'no file', m[1]); bad += 1; continue
        top = max(int(x) for x in re.findall(r'\d+', m[2]))
        if all(top > sum(1 for _ in open(c, errors='replace')) for c in cand):
            print(os.path.basename(p), m[0], 'beyond end'); bad += 1
        n += 1
print(n, 'line citations,', bad, 'problems')
