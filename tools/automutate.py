"""Generates wrong programs mechanically: for each definition of the model, one small edit (sign, comparison, constant,
dropped update, transposition, ...), in a scratch copy.  Edits that do not compile in the model are skipped.  The property
modules that depend on the file are rebuilt, those that name the definition first, until one fails.
usage: MUT=scratch/ automutate.py LIST OUT [FROM TO] ; LIST: lines `File.lean def`, OUT: log of results.
Appends one line per attempt to /verif/seeded/LOG.jsonl; survivors are examined by hand."""
import glob, hashlib, json, os, re, subprocess, sys
S = os.environ.get('MUT', '/tmp/mut2/lean/')
V = '/verif/lean/'
subprocess.run(f'rm -rf {S}Verif && cp -r {V}Verif {V}Verif.lean {S}', shell=True, check=True)
OPS = [
 ('drop update', r'\{ (\w+) with [^{}]*\}', r'\1'),
 ('drop line', r'(?m)^ +let (\w+) := \{ \1 with .*\n', ''),
 ('negate condition', r'if ((?:(?!if |then).)+?) then', r'if ¬ (\1) then'),
 ('comparison', r' < ', ' ≤ '), ('comparison', r' ≤ ', ' < '),
 ('sign', r' \+ ', ' - '), ('sign', r' - ', ' + '), ('sign', r'-\(', '('), ('sign', r'(?<=[( ])-(?=[\w])', ''),
 ('boolean', r'\btrue\b', 'false'), ('boolean', r'\bfalse\b', 'true'), ('connective', r' && ', ' || '), ('connective', r' ∧ ', ' ∨ '),
 ('transpose', r'ᵀ', ''), ('scaling', r'[\w.]+ • ', ''), ('minmax', r'\bmax\b', 'min'), ('minmax', r'\bmin\b', 'max'),
 ('list end', r'\bdropLast\b', 'tail'), ('list end', r'\btail\b', 'dropLast'), ('list end', r'\.reverse\b', ''),
 ('half', r'\bfst\b', 'snd'), ('half', r'\bsnd\b', 'fst'), ('half', r'\btop\b', 'bot'), ('half', r'\bbot\b', 'top'), ('half', r'\bhd\b', 'tl'),
 ('half', r'\btl\b', 'hd'), ('half', r'\.1\b', '.2'), ('half', r'\.2\b', '.1'),
 ('constant', r'\b0\b', '1'), ('constant', r'\b1\b', '0'), ('constant', r'\b2\b', '1'), ('constant', r'\b3\b', '2'),
 ('product', r' \* ', ' + '), ('equality', r' = ', ' ≠ '), ('equality', r' == ', ' != '),
 ('drop factor', r' \* [\w.]+(?=[\s)])', ''), ('drop term', r' \+ [\w.]+(?=[\s)])', ''),
 ('none', r'\bsome [\w.]+', 'none'), ('swap', r'Fin\.append (\w+) (\w+)', r'Fin.append \2 \1'), ('identity', r'=> \w+ (\w+)$', r'=> \1'),
 ('range', r'Finset\.range \((\w+) \+ 1\)', r'Finset.range \1'), ('append', r'(\w+) \+\+ (\w+)', r'\2 ++ \1'),
]
START = re.compile(r'^(?:/--|/-!|@\[|(?:noncomputable |private |protected )*(?:def|abbrev|theorem|lemma|structure|inductive|instance|example)\b|end\b|section\b|namespace\b|open\b|variable\b|noncomputable section)', re.M)

def imports():
    g = {}
    for f in glob.glob(V + 'Verif/**/*.lean', recursive=True):
        mod = f[len(V):-5].replace('/', '.')
        g[mod] = set(re.findall(r'^import (Verif\.[\w.]+)', open(f).read(), re.M))
    return g
G = imports()
def reach(m, seen=None):
    seen = set() if seen is None else seen
    for k in G.get(m, ()):
        if k not in seen: seen.add(k); reach(k, seen)
    return seen
R = {m: reach(m) for m in G}

def block(text, name):
    m = re.search(r'^((?:noncomputable |private |protected )*(?:def|abbrev) ' + re.escape(name) + r')(?![\w.\'])', text, re.M)
    if not m: return None
    e = START.search(text, m.end())
    end = e.start() if e else len(text)
    seg = text[m.start():end]
    b = re.search(r':=|\bwhere\b|\n  \|', seg)
    doc = text[text.rfind('/--', 0, m.start()):m.start()]
    return (m.start() + (b.end() if b else 0), end, doc) if b else None

def build(t):
    r = subprocess.run(['nice', 'lake', 'build', t], cwd=S, capture_output=True, text=True)
    return r.returncode, r.stdout + r.stderr

def enclosing(path, line):
    name = None
    for i, l in enumerate(open(S + path), 1):
        if i > line: break
        m = re.match(r'\s*(?:@\[.*?\]\s*)?(?:private |protected )?(?:noncomputable )?(theorem|lemma|def|example|instance)\s+([\w.\']+)?', l)
        if m: name = m[2] if m[1] != 'example' else f'example@{i}'
    return name

items = [l.split() for l in open(sys.argv[1]) if l.strip()]
out = open(sys.argv[2], 'a')
for fn, name in items:
    p = S + 'Verif/Model/' + fn
    t = open(p).read()
    blk = block(t, name)
    if not blk: print('?? no block', fn, name, file=out, flush=True); continue
    a, b, doc = blk
    body = t[a:b]
    cands = []
    for kind, pat, rep in OPS:
        ms = [m for m in re.finditer(pat, body) if '--' not in body[body.rfind('\n', 0, m.start()) + 1:m.start()]]
        if not ms: continue
        h = int(hashlib.md5((name + pat).encode()).hexdigest(), 16)
        m = ms[h % len(ms)]
        cands.append((h % 97, kind, m, m.expand(rep)))
    cands.sort(key=lambda c: c[0])
    mod = 'Verif.Model.' + fn[:-5]
    deps = [m for m in R if m.startswith('Verif.Props.') and mod in R[m]]
    short = name.split('.')[-1]
    def rank(m):
        src = open(V + m.replace('.', '/') + '.lean').read()
        return (0 if re.search(r'\b' + re.escape(short) + r'\b', src) else 1, 0 if m.endswith(fn[:-5]) else 1, len(src))
    deps.sort(key=rank)
    done = False
    for _, kind, m, rep in cands[:6]:
        new = t[:a] + body[:m.start()] + rep + body[m.end():] + t[b:]
        if new == t: continue
        open(p, 'w').write(new)
        rc, o = build(mod)
        if rc != 0: open(p, 'w').write(t); continue
        failed, where, bad = [], None, False
        for d in deps:
            rc, o = build(d)
            if rc == 0: continue
            errs = re.findall(r'error: (Verif/[\w/]+\.lean):(\d+):\d+', o)
            if any(x.startswith('Verif/Model/') for x, _ in errs): bad = True; break
            if not errs: print('?? odd failure', fn, name, d, o[-300:], file=out, flush=True)
            for x, l in errs:
                n = enclosing(x, int(l))
                if n and n not in failed: failed.append(n)
            if errs: break
        open(p, 'w').write(t)
        if bad: continue
        ctx = body[max(0, m.start() - 40):m.end() + 40].replace('\n', ' ')
        edit = f'{kind}: {m[0].strip()!r} ==> {rep.strip()!r} in "...{ctx}..."'
        cite = '; '.join(re.findall(r'[\w/.-]+\.[hc]\w\w:[\d-]+', doc)) or 'the cited lines'
        print(('caught ' if failed else 'SURVIVED ') + fn + ' ' + name + ' | ' + edit + ' | ' + ', '.join(failed)[:200], file=out, flush=True)
        rec = {'definition': f'{fn[:-5]}.{name}', 'edit': edit, 'claim': f'the properties proved of {name} hold of the code at {cite}',
               'failed': failed, 'tightened': []}
        open('/verif/seeded/LOG.jsonl', 'a').write(json.dumps(rec, ensure_ascii=False) + '\n')
        done = True
        break
    if not done: print('-- no edit compiled', fn, name, file=out, flush=True)
print('END', file=out, flush=True)
