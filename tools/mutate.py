"""Runs wrong programs: applies one edit to a scratch copy of the Lean project, rebuilds the property modules and
reports the theorems that fail.  usage: mutate.py FILE.json ; entries {file, old, new, claim, targets, definition}.
Appends one line per attempt to /verif/seeded/LOG.jsonl (field `tightened` is filled in by hand)."""
import json, os, re, shutil, subprocess, sys
S = os.environ.get('MUT', '/tmp/mut/lean/')
V = '/verif/lean/'
subprocess.run(['rsync', '-a', '--delete', '--exclude', '.lake', V, S], check=False) if shutil.which('rsync') else \
    subprocess.run(f'rm -rf {S}Verif && cp -r {V}Verif {V}Verif.lean {S}', shell=True, check=True)

def enclosing(path, line):
    name = None
    for i, l in enumerate(open(S + path), 1):
        if i > line: break
        m = re.match(r'\s*(?:@\[.*?\]\s*)?(?:private |protected )?(?:noncomputable )?(theorem|lemma|def|example|instance)\s+([\w.\']+)?', l)
        if m: name = m[2] if m[1] != 'example' else f'example@{i}'
    return name

for e in json.load(open(sys.argv[1])):
    p = S + 'Verif/' + e['file']
    t = open(p).read()
    if t.count(e['old']) != 1:
        print('!! pattern count', t.count(e['old']), e['definition'], e['old'][:60]); continue
    open(p, 'w').write(t.replace(e['old'], e['new']))
    r = subprocess.run(['lake', 'build'] + e['targets'], cwd=S, capture_output=True, text=True)
    out = r.stdout + r.stderr
    failed, model_broken = [], False
    for m in re.finditer(r'error: (Verif/[\w/]+\.lean):(\d+):\d+', out):
        n = enclosing(m[1], int(m[2]))
        if m[1] == 'Verif/' + e['file']: model_broken = True
        if n and n not in failed: failed.append(n)
    blocked = [x for x in e['targets'] if x in out and r.returncode != 0]
    open(p, 'w').write(t)
    rec = {'definition': e['definition'], 'edit': f"{e['old']}  ==>  {e['new']}", 'claim': e['claim'],
           'failed': failed, 'tightened': e.get('tightened', [])}
    if model_broken: rec['failed'] = []; print('!! model does not compile', e['definition'], out[-600:]); continue
    print(('caught ' if failed else 'SURVIVED ') + e['definition'] + ': ' + ', '.join(failed)[:300])
    open('/verif/seeded/LOG.jsonl', 'a').write(json.dumps(rec, ensure_ascii=False) + '\n')
