#!/usr/bin/env python3
"""Seeded-bug runner (scratch copy outside /verif).

usage: seed.py mutants.json results.jsonl
A mutant: {"id","file","definition","old","new","nth"(opt),"edit","claim","props":[...]}.
The edited module and everything importing it are re-elaborated with an error-tolerant frontend
(tools/mutc.txt): a theorem whose proof breaks is kept as an assumption, so that every later
theorem is still elaborated.  A property theorem "fails" if its proof breaks or uses a broken one;
theorems of modules which could not be elaborated at all (out of time or memory) are "undecided" and count
for neither side.
"""
import json, os, re, resource, shutil, subprocess, sys, time
from concurrent.futures import ThreadPoolExecutor, wait, FIRST_COMPLETED
SRC = os.environ.get('SEED_SRC', '/verif/lean'); SC = os.environ.get('SEED_DIR', '/tmp/seed2'); LIB = SC + '/lib'; MUTC = '/verif/tools/mutc.txt'
ONLY = os.environ.get('SEED_ONLY', '').split()
JOBS = int(os.environ.get('SEED_JOBS', 2)); CPU = 1200   # seconds of processor time per module (pausing a run does not count)

def modules():
    r = {}
    for d, _, fs in os.walk(SRC + '/Verif'):
        for f in fs:
            if f.endswith('.lean'):
                p = os.path.join(d, f); rel = os.path.relpath(p, SRC)
                m = rel[:-5].replace('/', '.')
                imps = [x for x in re.findall(r'^import (\S+)', open(p).read(), re.M) if x.startswith('Verif.')]
                r[m] = (rel, imps)
    return r

def prepare():
    if os.path.exists(SC): shutil.rmtree(SC)
    os.makedirs(LIB)
    shutil.copytree(SRC + '/Verif', SC + '/Verif')
    shutil.copytree(SRC + '/.lake/build/lib/lean/Verif', LIB + '/Verif')

def env():
    e = dict(os.environ)
    lp = subprocess.run(['lake', 'env', 'printenv', 'LEAN_PATH'], cwd=SRC, capture_output=True, text=True).stdout.strip().split(':')
    lp = [x for x in lp if not x.startswith('/verif')]
    e['LEAN_PATH'] = ':'.join([LIB] + lp)
    return e

def compile(m, rel, e):
    ol = LIB + '/' + rel[:-5] + '.olean'
    for ext in ('.olean', '.ilean', '.olean.hash', '.ilean.hash', '.trace'):
        p = ol[:-6] + ext
        if os.path.exists(p): os.remove(p)
    lim = lambda: resource.setrlimit(resource.RLIMIT_CPU, (CPU, CPU + 10))
    r = subprocess.run(['lean', '--run', MUTC, SC + '/' + rel, m, ol], env=e, cwd=SC, capture_output=True, text=True, preexec_fn=lim)
    out = r.stdout.split('\n')
    ok = [l[3:] for l in out if l.startswith('OK ')]; bad = [l[7:] for l in out if l.startswith('BROKEN ')]
    errs = [l for l in out if l.startswith('ERR ')]
    done = any(l.startswith('DONE') for l in out)
    return {'mod': m, 'status': 'done' if done else 'crash', 'ok': ok, 'bad': bad, 'errs': len(errs),
            'tail': (r.stdout + r.stderr)[-300:] if not done else ''}

def run(mut, mods, e):
    rel = mut['file']
    txt = open(SRC + '/' + rel).read()
    n = txt.count(mut['old'])
    nth = mut.get('nth')
    if n == 0 or (n > 1 and nth is None):
        return {'id': mut['id'], 'error': f'old string occurs {n} times'}
    if nth is None: new = txt.replace(mut['old'], mut['new'])
    else:
        parts = txt.split(mut['old']); new = mut['old'].join(parts[:nth + 1]) + mut['new'] + mut['old'].join(parts[nth + 1:])
    open(SC + '/' + rel, 'w').write(new)
    root = rel[:-5].replace('/', '.')
    down = {root}
    ch = True
    while ch:
        ch = False
        for m, (_, imps) in mods.items():
            if m not in down and any(i in down for i in imps): down.add(m); ch = True
    down.discard('Verif')
    if ONLY:   # only the modules which the given ones need
        need = set(ONLY); todo = list(ONLY)
        while todo:
            for i in mods[todo.pop()][1]:
                if i not in need: need.add(i); todo.append(i)
        down &= need
    res = {}; pend = set(down); running = {}; skipped = []
    with ThreadPoolExecutor(JOBS) as ex:
        while pend or running:
            for m in sorted(pend):
                deps = [i for i in mods[m][1] if i in down]
                if any(i in res and res[i]['status'] != 'done' for i in deps):
                    res[m] = {'mod': m, 'status': 'skipped'}; pend.discard(m); skipped.append(m)
                elif all(i in res for i in deps) and len(running) < JOBS:
                    running[ex.submit(compile, m, mods[m][0], e)] = m; pend.discard(m)
            if running:
                d, _ = wait(running, return_when=FIRST_COMPLETED)
                for f in d: res[running.pop(f)] = f.result()
    # restore
    shutil.copy(SRC + '/' + rel, SC + '/' + rel)
    for m in down:
        src = SRC + '/.lake/build/lib/lean/' + mods[m][0][:-5]; dst = LIB + '/' + mods[m][0][:-5]
        for ext in ('.olean', '.ilean'):
            if os.path.exists(dst + ext): os.remove(dst + ext)
            if os.path.exists(src + ext): shutil.copy(src + ext, dst + ext)
    okn = set(); bad = set(); notdone = []
    for m, r in res.items():
        if r['status'] == 'done': okn |= set(r['ok']); bad |= set(r['bad'])
        else: notdone.append((m, r['status'], r.get('tail', '')))
    # property theorems of the pristine files
    failed = []; surv = []; undecided = []
    for m in down:
        if m.startswith('Verif.Props.'):
            for t in re.findall(r'^theorem (C\d+\w*)', open(SRC + '/' + mods[m][0]).read(), re.M):
                full = [x for x in okn if x.split('.')[-1] == t]
                if res[m]['status'] != 'done': undecided.append(t)   # never elaborated: neither proved nor broken
                else: (surv if full else failed).append(t)
    lem = [x for x in bad if not re.match(r'C\d\d', x.split('.')[-1])]
    broken = {p: [t for t in failed if t.startswith(p + '_')] for p in mut['props']}
    still = {p: [t for t in surv if t.startswith(p + '_')] for p in mut['props']}
    return {'id': mut['id'], 'failed': sorted(failed), 'expected_failed': broken, 'expected_still_proved': still,
            'lemmas_failed': len(lem), 'notdone': notdone, 'undecided': sorted(undecided),
            'verdict': 'caught' if all(broken[p] for p in broken) else 'SURVIVED'}

if __name__ == '__main__':
    muts = json.load(open(sys.argv[1])); outp = sys.argv[2]
    done = set()
    if os.path.exists(outp): done = {json.loads(l)['id'] for l in open(outp) if 'error' not in json.loads(l)}
    prepare(); mods = modules(); e = env()
    for mu in muts:
        if mu['id'] in done: continue
        t = time.time(); r = run(mu, mods, e); r['secs'] = round(time.time() - t)
        open(outp, 'a').write(json.dumps(r) + '\n')
        print(mu['id'], r.get('error') or r['verdict'], len(r.get('failed', [])), r['secs'], flush=True)
