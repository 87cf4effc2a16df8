#!/usr/bin/env python3
"""Seeded-bug testing. usage: mutate.py BATCH.json   (run outside /verif; works in /tmp/mut)

Each entry: {"def","file","old","new","edit","claim"}. The model in a scratch copy is edited, rebuilt, and
the failing declarations are collected; a property theorem counts as failed if it or a lemma it depends on
no longer compiles. One line per attempt is appended to /verif/seeded/LOG.jsonl."""
import json, os, re, subprocess, sys, shutil
SRC = '/verif/lean'; DST = '/tmp/mut/lean'
def sh(cmd, t=3000):
    return subprocess.run(cmd, shell=True, capture_output=True, text=True, timeout=t)
def sync():
    os.makedirs('/tmp/mut', exist_ok=True)
    sh(f'rsync -a --delete {SRC}/ {DST}/' if shutil.which('rsync') else f'rm -rf {DST}; cp -a {SRC} {DST}')
def deps():
    sh(f'cp /verif/tools/Deps.lean.txt {DST}/Deps.lean')
    out = sh(f'cd {DST} && lake env lean Deps.lean').stdout
    os.remove(f'{DST}/Deps.lean')
    d = {}
    for l in out.splitlines():
        w = l.split()
        if w: d[w[0]] = set(w[1:])
    return d
DECL = re.compile(r'^\s*(?:@\[[^\]]*\]\s*)?(?:private |protected |noncomputable |scoped )*(theorem|lemma|def|example|instance|structure|inductive|abbrev)\b\s*([^\s:({\[]*)')
def decl_at(path, line):
    ls = open(path).read().split('\n')
    for i in range(min(line, len(ls)) - 1, -1, -1):
        m = DECL.match(ls[i])
        if m: return m.group(1), m.group(2)
    return '?', '?'
def admit(path, line):
    """In the scratch copy, skip the proof of the declaration at this line, so that the modules after it are still checked."""
    ls = open(path).read().split('\n')
    i = min(line, len(ls)) - 1
    while i >= 0 and not (DECL.match(ls[i]) and not ls[i].startswith(' ')): i -= 1
    if i < 0: return False
    j = i + 1
    while j < len(ls) and (ls[j].startswith(' ') or not ls[j].strip()): j += 1
    kind = DECL.match(ls[i]).group(1)
    if kind == 'example': ls[i:j] = []
    elif kind in ('theorem', 'lemma'):
        text = '\n'.join(ls[i:j]); depth = 0; cut = None
        for k, c in enumerate(text):
            if c in '([{⟨': depth += 1
            elif c in ')]}⟩': depth -= 1
            elif depth == 0 and (text.startswith(' :=', k) or text.startswith('\n  | ', k)): cut = k; break
        if cut is None: return False
        ls[i:j] = [text[:cut] + ' := by sorry', '']
    else: return False
    open(path, 'w').write('\n'.join(ls))
    return True
def main():
    batch = json.load(open(sys.argv[1]))
    sync()
    sh(f'cd {DST} && lake build')
    D = deps()
    for m in batch:
        p = f'{DST}/{m["file"]}'
        orig = open(p).read()
        k = orig.count(m['old'])
        n = m.get('nth', 0)
        if k == 0 or (k > 1 and 'nth' not in m):
            print('BAD MUTATION (matches %d):' % k, m['def'], m['old']); continue
        parts = orig.split(m['old'])
        new = m['old'].join(parts[:n + 1]) + m['new'] + m['old'].join(parts[n + 1:])
        open(p, 'w').write(new)
        out = sh(f'cd {DST} && lake build 2>&1').stdout
        failed, ex = [], 0
        ids = m['claim'].split()[0].rstrip(':').split('/')
        touched = {}
        for rnd in range(6):
            errs = {}
            for mm in re.finditer(r'error: (Verif/[^:\s]+\.lean):(\d+):', out):
                q, ln = f'{DST}/{mm.group(1)}', int(mm.group(2))
                kind, name = decl_at(q, ln)
                if kind == 'example': ex += 1
                elif name not in failed: failed.append(name)
                if q != p: errs.setdefault((q, kind, name, ex if kind == 'example' else 0), ln)
            if not errs or any(name.startswith(i + '_') for name in failed for i in ids): break
            ok = True
            for (q, *_), ln in sorted(errs.items(), key=lambda t: -t[1]):
                touched.setdefault(q, open(q).read())
                ok = admit(q, ln) and ok
            if not ok: break
            out = sh(f'cd {DST} && lake build 2>&1').stdout
        for q, t in touched.items(): open(q, 'w').write(t)
        open(p, 'w').write(orig)
        thms = sorted(c.split('.')[-1] for c, s in D.items()
                      if c.split('.')[-1] in failed or any(x.split('.', 2)[-1] in failed or x.split('.')[-1] in failed for x in s))
        rec = {'definition': m['def'], 'file': m['file'], 'edit': m['edit'], 'claim_broken': m['claim'],
               'failing_declarations': failed, 'failing_examples': ex, 'theorems_failed': thms,
               'theorems_tightened': m.get('tightened', [])}
        ids = re.findall(r'C\d+', m['claim'].split(': ')[0])
        hit = [t for t in thms if any(t.startswith(i + '_') for i in ids)]
        rec['caught'] = bool(hit)
        print(('CAUGHT ' if hit else 'MISSED ') + m['def'], m['edit'], '|', failed[:4], '|', hit[:6], '| ex', ex, flush=True)
        if '--dry' not in sys.argv:
            with open('/verif/seeded/LOG.jsonl', 'a') as f: f.write(json.dumps(rec, ensure_ascii=False) + '\n')
main()
