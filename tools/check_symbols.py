"""Lists citations `sym` (file:a-b) whose backquoted identifiers do not occur in the cited lines: candidates for
wrong line numbers, to be looked at by hand."""
import glob, os, re
R = '/repo/'
files = {}
for root in ('include', 'src', 'bindings', 'gar', 'tests'):
    for d, _, fs in os.walk(R + root):
        for f in fs:
            files.setdefault(f, []).append(os.path.join(d, f))
for p in sorted(glob.glob('/verif/lean/Verif/**/*.lean', recursive=True)):
    t = open(p).read()
    for dm in re.finditer(r'/--(.*?)-/', t, re.S):
        doc = dm[1]
        last = None
        for m in re.finditer(r'`([^`]+)`\s*\(?\s*([\w./-]+\.(?:hpp|hxx|cpp|txx)):\s*(\d+)(?:-(\d+))?', doc):
            cand = [c for c in files.get(os.path.basename(m[2]), []) if c.endswith('/' + m[2])]
            ids = re.findall(r'[A-Za-z_][A-Za-z_0-9]{2,}', m[1])
            ids = [i for i in ids if i not in ('Tpl', 'std', 'math', 'const')]
            if not ids or not cand: continue
            a = int(m[3]); b = int(m[4] or a)
            ok = False
            for c in cand:
                L = open(c, errors='replace').read().split('\n')
                seg = '\n'.join(L[max(0, a - 2):b + 1])
                whole = '\n'.join(L)
                if any(i in seg for i in ids) or not any(i in whole for i in ids): ok = True
            if not ok:
                print(os.path.relpath(p, '/verif/lean/Verif'), '|', m[1], '|', m[2], m[3], m[4])
