#!/usr/bin/env python3
"""Seeded-bug testing of the theorems.
usage: mutate.py <mutations.py> [first [last]]
Each mutation edits one definition of the model in a scratch copy (/tmp/scratch), rebuilds, and records which
theorems no longer prove.  One JSON line per attempt is appended to seeded/LOG.jsonl.
The mutations file defines M = [(file, definition, old text, new text, claim broken), ...]."""
import sys, os, re, json, subprocess, shutil, glob, runpy
root = os.path.dirname(os.path.dirname(os.path.abspath(__file__)))
scratch = os.environ.get('SCRATCH', '/tmp/scratch')
log = root + '/seeded/LOG.jsonl'
decl = re.compile(r'^\s*(?:@\[[^\]]*\]\s*)?(?:private |protected |noncomputable )*(theorem|lemma|def|instance|example|abbrev|inductive|structure)\s*(\S*)')

def sync():
    if not os.path.isdir(scratch):
        shutil.copytree(root + '/lean', scratch, symlinks=True)
    subprocess.run(['rsync', '-a', '--delete', '--exclude', '.lake', root + '/lean/', scratch + '/'], check=True) if shutil.which('rsync') else \
        subprocess.run(f'rm -rf {scratch}/Verif {scratch}/Verif.lean && cp -r {root}/lean/Verif {root}/lean/Verif.lean {scratch}/', shell=True, check=True)

def build():
    r = subprocess.run('lake build 2>&1', shell=True, cwd=scratch, capture_output=True, text=True)
    return r.returncode, r.stdout

def decls():
    out = {}
    for f in glob.glob(scratch + '/Verif/*.lean'):
        cur = None
        for line in open(f):
            m = decl.match(line)
            if m:
                cur = m.group(2) or '(example)'
                out.setdefault(cur, [m.group(1), set(), os.path.basename(f)])
            if cur:
                out[cur][1].update(re.findall(r"[\w.'«»]+", line))
    return out

def dependents(failed):
    d = decls()
    users = {}
    for n, (k, toks, f) in d.items():
        for t in toks:
            for part in {t, t.split('.')[-1], '.'.join(t.split('.')[-2:])}:
                users.setdefault(part, set()).add(n)
    seen, todo = set(failed), list(failed)
    while todo:
        x = todo.pop()
        for key in {x, x.split('.')[-1]}:
            for u in users.get(key, ()):
                if u not in seen and d[u][0] == 'theorem':
                    seen.add(u); todo.append(u)
    return sorted(x for x in seen if re.match(r'C\d\d\d?_', x))

def main():
    muts = runpy.run_path(sys.argv[1])['M']
    lo = int(sys.argv[2]) if len(sys.argv) > 2 else 0
    hi = int(sys.argv[3]) if len(sys.argv) > 3 else len(muts)
    sync()
    rc, out = build()
    if rc: print('baseline does not build'); print(out[-3000:]); sys.exit(1)
    for i, (file, name, old, new, claim) in enumerate(muts[lo:hi], lo):
        path = f'{scratch}/Verif/{file}.lean'
        src = open(path).read()
        if src.count(old) != 1:
            print(i, 'BAD EDIT', name, src.count(old)); continue
        open(path, 'w').write(src.replace(old, new))
        rc, out = build()
        errs = re.findall(r'error: (?:\S*/)?Verif/(\w+)\.lean:(\d+)', out)
        failed = []
        for f, ln in errs:
            lines = open(f'{scratch}/Verif/{f}.lean').read().split('\n')[:int(ln)]
            for l in reversed(lines):
                m = decl.match(l)
                if m:
                    n = m.group(2) if m.group(1) != 'example' else f'(example in {f})'
                    if n not in failed: failed.append(n)
                    break
        open(path, 'w').write(src)
        moddef = any(f == file and n == name.split('.')[-1] for (f, _), n in zip(errs, failed))
        cs = dependents([f for f in failed if not f.startswith('(')]) if failed else []
        print(i, name, '->', claim, '| FAILED' if rc else '| *** SURVIVED ***', failed[:4], cs[:6], flush=True)
        rec = {"definition": f"{name} (lean/Verif/{file}.lean)", "edit": f"{old.strip()}  ==>  {new.strip()}", "claim": claim,
               "theorems_failed": failed, "claims_not_provable": [c for c in cs if c.split('_')[0] in claim] or cs[:8], "theorems_tightened": []}
        if rc == 0: rec["survived"] = True
        open(log, 'a').write(json.dumps(rec) + '\n')
main()
