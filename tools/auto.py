#!/usr/bin/env python3
"""Automatic operator mutations. usage: auto.py N OUT.jsonl [FILE...]   (run outside /verif; works in /tmp/auto)

For each definition of the model that cites the repository, up to N single-token edits are made at random places (seeded by
the name), the project is rebuilt, and the property theorems which no longer compile, or which depend on a lemma that no
longer compiles, are collected. Edits that do not compile themselves are dropped. Results go to OUT.jsonl."""
import json, os, re, subprocess, sys, shutil, random
SRC = '/verif/lean'; BASE = '/tmp/auto/base'; DST = '/tmp/auto/lean'
def sh(cmd, t=3000):
    try:
        return subprocess.run(cmd, shell=True, capture_output=True, text=True, timeout=t)
    except subprocess.TimeoutExpired:
        class R: stdout = 'TIMEOUT'
        return R
DECL = re.compile(r'^\s*(?:@\[[^\]]*\]\s*)?(?:private |protected |noncomputable |scoped )*(theorem|lemma|def|example|instance|structure|inductive|abbrev)\b\s*([^\s:({\[]*)')
def decl_at(path, line):
    ls = open(path).read().split('\n')
    for i in range(min(line, len(ls)) - 1, -1, -1):
        m = DECL.match(ls[i])
        if m: return m.group(1), m.group(2)
    return '?', '?'
def files(root):
    r = {}
    for d, _, fs in os.walk(root):
        for f in fs:
            p = os.path.join(d, f); s = os.stat(p)
            r[os.path.relpath(p, root)] = (s.st_size, s.st_mtime_ns)
    return r
def restore():
    a, b = files(BASE), files(DST)
    for f in b:
        if f not in a: os.remove(os.path.join(DST, f))
    for f, k in a.items():
        if b.get(f) != k:
            os.makedirs(os.path.dirname(os.path.join(DST, f)), exist_ok=True)
            shutil.copy2(os.path.join(BASE, f), os.path.join(DST, f))
def deps():
    sh(f'cp /verif/tools/Deps.lean.txt {DST}/Deps.lean')
    out = sh(f'cd {DST} && lake env lean Deps.lean').stdout
    os.remove(f'{DST}/Deps.lean')
    return {l.split()[0]: set(l.split()[1:]) for l in out.splitlines() if l.split()}
OPS = [(r' \+ ', ' - '), (r' - ', ' + '), (r' \* ', ' + '), (r' / ', ' * '), (r' < ', ' ≤ '), (r' ≤ ', ' < '), (r' > ', ' ≥ '),
       (r' ≥ ', ' > '), (r' && ', ' || '), (r' \|\| ', ' && '), (r' ∧ ', ' ∨ '), (r' ∨ ', ' ∧ '), (r' == ', ' != '), (r' != ', ' == '),
       (r'(?<=if )¬ ', ''), (r'\btrue\b', 'false'), (r'\bfalse\b', 'true'), (r'\bsin\b', 'cos'), (r'\bcos\b', 'sin'),
       (r'\bmin\b', 'max'), (r'\bmax\b', 'min'), (r'\bsome ', 'id <| some '), (r' i j\b', ' j i'), (r'(?<=\w)\.1\b', '.2'),
       (r'(?<=\w)\.2\b', '.1'), (r'(?<![\w.])(\d+)(?![\w.])', None), (r' ≠ ', ' = '), (r'(?<=if )([^\n]*?) = ', r'\1 ≠ '),
       (r'\+ 1\b', '+ 0'), (r'\b(\w) (\w)\b(?= *[)\n])', r'\2 \1')]
OPS = [o for o in OPS if not o[1] or 'some' not in o[1]]
def blocks(path):
    t = open(path).read()
    pos = [m.start() for m in re.finditer(r'^(?=(?:/--|@\[|noncomputable |def |theorem |lemma |example|instance|structure|inductive|abbrev|end |namespace |section|variable|open |omit |set_option|local |private |class |mutual|partial ))', t, re.M)]
    pos.append(len(t))
    out = []; doc = ''
    for a, b in zip(pos, pos[1:]):
        s = re.split(r'^/-!', t[a:b], flags=re.M)[0]
        if s.startswith('/--'): doc = s; continue
        m = re.match(r'(?:@\[[^\]]*\]\s*)?(?:noncomputable )?(def|abbrev|instance)\s+([^\s:({\[]*)', s)
        if m and '.rs' in doc + s or m and re.search(r'`[\w/]+\.rs|:\d+-\d+|:\d+`', doc):
            out.append((m.group(2), a, s))
        if not re.match(r'omit |set_option|@\[', s): doc = ''
    return t, out
def mutants(name, s, n):
    k = s.find(':='); k2 = s.find('\n  |')
    body = min(x for x in (k if k >= 0 else 10**9, k2 if k2 >= 0 else 10**9))
    if body == 10**9: return []
    c = []
    for pat, rep in OPS:
        for m in re.finditer(pat, s):
            if m.start() < body: continue
            if '--' in s[s.rfind('\n', 0, m.start()) + 1:m.start()]: continue
            r = str(int(m.group(1)) + 1) if rep is None else m.expand(rep)
            c.append((m.start(), m.end(), r))
    random.Random(name).shuffle(c)
    return c[:n * 4]
def main():
    N = int(sys.argv[1]); OUT = sys.argv[2]
    want = sys.argv[3:]
    os.makedirs('/tmp/auto', exist_ok=True)
    sh(f'rm -rf {BASE} {DST}; cp -a {SRC} {BASE}; cd {BASE} && lake build; cp -a {BASE} {DST}')
    D = deps()
    done = set()
    if os.path.exists(OUT):
        for l in open(OUT):
            x = json.loads(l); done.add((x['file'], x['definition']))
    fs = want or sorted(os.path.relpath(os.path.join(d, f), SRC) for d, _, ff in os.walk(SRC + '/Verif') for f in ff if f.endswith('.lean'))
    for f in fs:
        t, bl = blocks(f'{BASE}/{f}')
        for name, a, s in bl:
            if (f, name) in done: continue
            got = 0
            for (i, j, r) in mutants(name, s, N):
                if got >= N: break
                new = s[:i] + r + s[j:]
                if new == s: continue
                open(f'{DST}/{f}', 'w').write(t[:a] + new + t[a + len(s):])
                mod = f[:-5].replace('/', '.')
                o = sh(f'cd {DST} && nice -n 19 lake build {mod} 2>&1').stdout
                if 'error' in o and re.search(r'error: ' + re.escape(f), o):
                    kind, nm = '', ''
                    lines = [int(x) for x in re.findall(r'error: ' + re.escape(f) + r':(\d+):', o)]
                    bad = [decl_at(f'{DST}/{f}', l) for l in lines]
                    if not any(k in ('theorem', 'lemma', 'example') and 1 for k, _ in bad) or any(x == name for _, x in bad):
                        restore(); continue
                o = sh(f'cd {DST} && nice -n 19 lake build 2>&1').stdout
                failed, ex = [], 0
                for mm in re.finditer(r'error: (Verif/[^:\s]+\.lean):(\d+):', o):
                    kind, nm = decl_at(f'{DST}/{mm.group(1)}', int(mm.group(2)))
                    if kind == 'example': ex += 1
                    elif nm not in failed: failed.append(nm)
                restore()
                if o == 'TIMEOUT': failed.append('TIMEOUT')
                thms = sorted(c.split('.')[-1] for c, q in D.items()
                              if c.split('.')[-1] in failed or any(x.split('.', 2)[-1] in failed or x.split('.')[-1] in failed for x in q))
                ln = s[s.rfind('\n', 0, i) + 1:s.find('\n', j) if s.find('\n', j) >= 0 else len(s)].strip()
                ln2 = new[new.rfind('\n', 0, i) + 1:new.find('\n', i + len(r)) if new.find('\n', i + len(r)) >= 0 else len(new)].strip()
                rec = {'definition': name, 'file': f, 'edit': f'{ln}  =>  {ln2}', 'failing_declarations': failed[:12],
                       'failing_examples': ex, 'theorems_failed': thms}
                got += 1
                open(OUT, 'a').write(json.dumps(rec, ensure_ascii=False) + '\n')
                print('KILLED ' if thms else 'SURVIVED ', f, name, '|', rec['edit'], '|', thms[:3], flush=True)
if __name__ == '__main__': main()
