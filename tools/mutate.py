#!/usr/bin/env python3
"""Apply seeded bugs to a scratch copy of the model and record which theorems fail.

usage: mutate.py FILE.json   (list of {file, def, old, new, claim, [tightened]})
Appends one line per mutation to seeded/LOG.jsonl.
"""
import json, os, re, subprocess, sys, time
SRC = os.environ.get('MUT_SRC', '/verif/lean/'); DST = '/tmp/mut/lean/'
def sync():
    subprocess.run(['rm', '-rf', DST + 'Verif'], check=True)
    subprocess.run(['cp', '-a', SRC + 'Verif', SRC + 'Verif.lean', DST], check=True)
    # the transcribed unit tests are not theorems: a mutant must be caught without them
    subprocess.run(['sed', '-i', '/RepoTests/d', DST + 'Verif.lean'], check=True)
def enclosing(path, line):
    name = '?'
    for i, l in enumerate(open(path), 1):
        if i > line: break
        m = re.match(r'\s*(?:@\[[^\]]*\]\s*)?(?:private\s+)?(theorem|def|example|instance|mutual)\s*([\w\'.]*)', l)
        if m: name = m.group(2) or m.group(1)
    return name
def main():
    muts = json.load(open(sys.argv[1]))
    os.makedirs('/tmp/mut', exist_ok=True)
    if not os.path.exists(DST + '.lake/build'):
        subprocess.run(['cp', '-a', '/verif/lean', '/tmp/mut/'], check=True)
    for m in muts:
        sync()
        p = DST + m['file']
        s = open(p).read()
        if s.count(m['old']) != 1:
            print('BAD MUTATION', m['def'], s.count(m['old'])); continue
        open(p, 'w').write(s.replace(m['old'], m['new']))
        t = time.time()
        r = subprocess.run(['lake', 'build'], cwd=DST, capture_output=True, text=True)
        out = r.stdout + r.stderr
        failed = []
        for f, l in re.findall(r'error: (Verif/[\w/]+\.lean):(\d+):', out):
            n = f.split('/', 1)[1][:-5].replace('/', '.') + ': ' + enclosing(DST + f, int(l))
            if n not in failed: failed.append(n)
        if any(n.startswith('Model.') for n in failed):
            print('INVALID', m['def'], failed); continue
        status = 'survived' if r.returncode == 0 else ('caught' if failed else 'build error')
        print(f"{status:9} {m['def']:30} {m['claim']:22} {time.time()-t:5.0f}s {failed[:4]}", flush=True)
        rec = {'definition': m['def'], 'file': m['file'], 'edit': m['old'] + '  ==>  ' + m['new'],
               'claim': m['claim'], 'result': status, 'theorems_failed': failed,
               'theorems_tightened': m.get('tightened', [])}
        with open('/verif/seeded/LOG.jsonl', 'a') as f: f.write(json.dumps(rec) + '\n')
    sync()
main()
