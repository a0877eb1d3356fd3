#!/usr/bin/env python3
"""Automatic seeded-bug testing: for each definition of the model one small random edit that still compiles.
usage: automutate.py <results.jsonl> <seed> <file> ...
Builds in a scratch copy until the first theorem fails; edits that do not compile in their own file are dropped.
One JSON line per valid edit is appended to the results file; survivors have to be looked at by hand."""
import sys, os, re, json, subprocess, shutil, random, signal, time
root = os.path.dirname(os.path.dirname(os.path.abspath(__file__)))
scratch = os.environ.get('SCRATCH', '/tmp/autoscratch')
base = scratch + '.base'
head = re.compile(r'^(?:@\[[^\]]*\]\s*)?(?:private |protected |noncomputable |partial )*(def|abbrev)\s+(\S+)')
anyhead = re.compile(r'^(?:@\[[^\]]*\]\s*)?(?:private |protected |noncomputable |partial )*(def|abbrev|theorem|lemma|instance|example|inductive|structure|namespace|end|section|variable|open|mutual|/-|--|deriving|@\[)')
decl = re.compile(r'^\s*(?:@\[[^\]]*\]\s*)?(?:private |protected |noncomputable )*(theorem|lemma|def|instance|example|abbrev|inductive|structure)\s*(\S*)')

def defs(src):
    lines = src.split('\n'); out = []; i = 0; pos = [0]
    for l in lines: pos.append(pos[-1] + len(l) + 1)
    while i < len(lines):
        m = head.match(lines[i])
        if m:
            j = i + 1
            while j < len(lines) and not anyhead.match(lines[j]): j += 1
            out.append((m.group(2), pos[i], pos[j]))
            i = j
        else: i += 1
    return out

def muts(body):
    """All candidate edits (start, end, replacement) of the text of a definition."""
    out = []
    k = body.find(':=')
    k2 = body.find('\n  |')
    st = min([x for x in (k, k2) if x >= 0] or [0])
    def add(a, b, r):
        if a >= st and body[a:b] != r: out.append((a, b, r))
    for m in re.finditer(r'\btrue\b', body): add(m.start(), m.end(), 'false')
    for m in re.finditer(r'\bfalse\b', body): add(m.start(), m.end(), 'true')
    for m in re.finditer(r'&&', body): add(m.start(), m.end(), '||')
    for m in re.finditer(r'\|\|', body): add(m.start(), m.end(), '&&')
    for m in re.finditer(r'!(?=[\w(])', body): add(m.start(), m.end(), '')
    for m in re.finditer(r'≠', body): add(m.start(), m.end(), '=')
    for m in re.finditer(r'if ((?!let|h)[^\n]*?) then', body): add(m.start(1), m.end(1), '¬ (' + m.group(1) + ')')
    for m in re.finditer(r'%s"((?:[^"\\]|\\.)+)"', body):
        t = m.group(1)
        add(m.start(1), m.end(1), t[:-1] if not t.endswith(('\\n', '\\"', '\\\\', '\\t')) else t[:-2])
    for m in re.finditer(r"'(\w)'", body): add(m.start(1), m.end(1), 'q')
    for m in re.finditer(r'(?<![\w.])(\d+)\b', body): add(m.start(1), m.end(1), str(int(m.group(1)) + 1))
    for m in re.finditer(r'\.1\b', body): add(m.start(), m.end(), '.2')
    for m in re.finditer(r'\.2\b', body): add(m.start(), m.end(), '.1')
    for m in re.finditer(r'=> some ([^\n|]+)$', body, re.M): add(m.start(), m.end(), '=> none')
    for m in re.finditer(r'([\w.)\]"]+) \+\+ ([\w.]+|%s"[^"\n]*")(?= |\n|$|\))', body): add(m.start(), m.end(), m.group(1)); 
    for m in re.finditer(r'\[([^\[\],\n]+), ([^\[\]\n]+)\]', body): add(m.start(), m.end(), '[' + m.group(2) + ']'); add(m.start(), m.end(), '[' + m.group(1) + ']')
    for m in re.finditer(r'(?<=[ (])([a-z]\w{0,3}) ([a-z]\w{0,3})(?=[ )\n])', body):
        if m.group(1) not in ('if', 'then', 'else', 'do', 'let', 'fun', 'with', 'at', 'in', 'by', 'have', 'match') and m.group(2) not in ('then', 'else', 'do', 'with', 'in', 'by'):
            add(m.start(), m.end(), m.group(2) + ' ' + m.group(1))
    arms = list(re.finditer(r'^( *)\| ([^\n]*?) => ([^\n]+)$', body, re.M))
    for a in arms:
        same = [b for b in arms if b is not a and b.group(1) == a.group(1)]
        for b in same[:6]: add(a.start(3), a.end(3), b.group(3))
    for m in re.finditer(r'\.error \(([^()\n]|\([^()\n]*\))*\)', body): add(m.start(), m.end(), '.error .panic')
    for m in re.finditer(r'\.error \.panic', body): add(m.start(), m.end(), '.error (.other [])')
    for m in re.finditer(r'\.filter ', body): add(m.start(), m.end(), '.takeWhile ')
    for m in re.finditer(r'\.insert ', body): pass
    for m in re.finditer(r'\b(all|any)\b', body): add(m.start(), m.end(), 'any' if m.group(1) == 'all' else 'all')
    for m in re.finditer(r'\b(isSome|isNone)\b', body): add(m.start(), m.end(), 'isNone' if m.group(1) == 'isSome' else 'isSome')
    return out

def restore():
    subprocess.run(['cp', '-rfp', '--update=all', base + '/.lake/build/.', scratch + '/.lake/build/'] if False else
        f'rm -rf {scratch}/.lake/build && cp -rp {base}/.lake/build {scratch}/.lake/build', shell=True, check=True)

def build(file):
    """(status, list of (file, line)): stops at the first error outside of the edited file."""
    p = subprocess.Popen('LEAN_NUM_THREADS=2 nice -n 10 lake build 2>&1', shell=True, cwd=scratch, stdout=subprocess.PIPE, text=True, start_new_session=True)
    errs = []
    for line in p.stdout:
        m = re.match(r'.*error: (?:\S*/)?Verif/(\w+)\.lean:(\d+)', line)
        if m:
            errs.append((m.group(1), int(m.group(2))))
            os.killpg(p.pid, signal.SIGKILL); break
    p.wait()
    return p.returncode, errs

def name_at(f, ln):
    for l in reversed(open(f'{scratch}/Verif/{f}.lean').read().split('\n')[:ln]):
        m = decl.match(l)
        if m: return m.group(2) if m.group(1) != 'example' else f'(example in {f})'
    return '?'

def main():
    results, seed, files = sys.argv[1], int(sys.argv[2]), sys.argv[3:]
    rnd = random.Random(seed)
    shutil.rmtree(base, ignore_errors=True); shutil.rmtree(scratch, ignore_errors=True)
    if not os.path.isdir(base): shutil.copytree(root + '/lean', base, symlinks=True)
    if not os.path.isdir(scratch): shutil.copytree(base, scratch, symlinks=True)
    done = set()
    if os.path.exists(results):
        for l in open(results): r = json.loads(l); done.add((r['file'], r['definition'], r['seed']))
    for file in files:
        src = open(f'{base}/Verif/{file}.lean').read()
        for name, a, b in defs(src):
            if (file, name, seed) in done: continue
            body = src[a:b]
            cs = muts(body)
            rnd.shuffle(cs)
            rec = None
            for x, y, r in cs[:5]:
                new = src[:a] + body[:x] + r + body[y:] + src[b:]
                open(f'{scratch}/Verif/{file}.lean', 'w').write(new)
                t = time.time()
                rc, errs = build(file)
                if errs and errs[0][0] == file and decl.match('theorem') and name_at(*errs[0]).split('.')[-1] == name.split('.')[-1]:
                    continue
                failed = [name_at(*e) for e in errs]
                ctx = body[max(0, body.rfind('\n', 0, x) + 1):y + max(0, body.find('\n', y) - y)]
                nctx = body[max(0, body.rfind('\n', 0, x) + 1):x] + r + body[y:y + max(0, body.find('\n', y) - y)]
                rec = dict(file=file, definition=name, seed=seed, old=ctx.strip(), new=nctx.strip(), failed=failed, where=[e[0] for e in errs], survived=(rc == 0), secs=round(time.time() - t))
                break
            open(f'{scratch}/Verif/{file}.lean', 'w').write(src)
            restore()
            if rec is None: rec = dict(file=file, definition=name, seed=seed, none=True)
            open(results, 'a').write(json.dumps(rec, ensure_ascii=False) + '\n')
main()
