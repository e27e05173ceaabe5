#!/usr/bin/env python3
"""Mutation-test the property theorems.

usage: mutate.py mutants.jsonl [id ...]

Works in a scratch copy (/tmp/mut/lean) of lean/.  Each line of the input has
  id, file (under Verif/), def, old, new, claim (property ids with the broken statement), targets (Props modules),
  and also: further edits (file, old, new), for definitions that are stated twice
The edit is applied to the scratch copy, the targets are rebuilt, every theorem whose proof fails is replaced by `sorry`
(so that the theorems that depend on it can be told from those that do not), and the property theorems whose axioms then
contain `sorryAx` are reported as failed.  One JSON line per attempt is appended to seeded/LOG.jsonl.
"""
import json, os, re, shutil, subprocess, sys, time
ROOT = os.path.dirname(os.path.dirname(os.path.abspath(__file__)))
SRC, DST = ROOT + '/lean', '/tmp/mut/lean'
LOG = ROOT + '/seeded/LOG.jsonl'

BASE = '/tmp/mut/base'

def snapshot():
    shutil.rmtree(BASE, ignore_errors=True)
    os.makedirs('/tmp/mut', exist_ok=True)
    subprocess.run(['cp', '-a', SRC, BASE], check=True)

def sync():
    shutil.rmtree(DST, ignore_errors=True)
    subprocess.run(['cp', '-a', BASE, DST], check=True)

DECL = re.compile(r'^(?:@\[[^\]]*\]\s*)?(?:private |protected |noncomputable )*(theorem|lemma|example|def|instance|abbrev|structure|inductive)\b')

def decls(lines):
    starts = [i for i, l in enumerate(lines) if DECL.match(l)]
    bounds = [i for i, l in enumerate(lines) if l and not l[0].isspace() and not l.startswith('where')]
    out = []
    for s in starts:
        e = next((b for b in bounds if b > s), len(lines))
        while e > s + 1 and not lines[e - 1].strip(): e -= 1
        out.append((s, e))
    return out

def sorry_decl(text):
    """replace the proof of a theorem by sorry: the first `:=` or ` where` at bracket depth 0"""
    d = 0
    for i, c in enumerate(text):
        if c in '([{⟨': d += 1
        elif c in ')]}⟩': d -= 1
        elif d == 0 and (text.startswith(':=', i) or re.match(r'\swhere\s*$', text[i:i + 8].split('\n')[0] if c != '\n' else '')):
            return text[:i] + ' := by sorry'
    return None

def build(targets, timeout):
    try:
        p = subprocess.run(['lake', 'build'] + targets, cwd=DST, stdout=subprocess.PIPE, stderr=subprocess.STDOUT,
                           text=True, timeout=timeout)
        return p.returncode, p.stdout
    except subprocess.TimeoutExpired as e:
        subprocess.run(['pkill', '-f', DST])
        return 124, (e.stdout or b'').decode() if isinstance(e.stdout, bytes) else (e.stdout or '')

def run(m, timeout=2400):
    sync()
    path = DST + '/Verif/' + m['file']
    s = open(path).read()
    assert s.count(m['old']) == 1, (m['id'], s.count(m['old']))
    open(path, 'w').write(s.replace(m['old'], m['new']))
    for a in m.get('also', []):
        path = DST + '/Verif/' + a['file']
        s = open(path).read()
        assert s.count(a['old']) == 1, (m['id'], a['file'], s.count(a['old']))
        open(path, 'w').write(s.replace(a['old'], a['new']))
    targets = ['Verif.Props.' + t for t in m['targets']]
    broken = []
    for it in range(40):
        rc, out = build(targets, timeout)
        if rc == 0: break
        errs = {}
        for f, l in re.findall(r'error: (Verif/\S+\.lean):(\d+):\d+', out): errs.setdefault(f, set()).add(int(l) - 1)
        if not errs:
            return {'error': 'no error positions', 'tail': out[-600:]}, broken
        for f, ls in errs.items():
            p = DST + '/' + f
            lines = open(p).read().split('\n')
            edits = []
            for s_, e_ in decls(lines):
                b_ = s_
                if b_ > 0 and lines[b_ - 1].rstrip().endswith('-/'):
                    b_ -= 1
                    while not lines[b_].startswith('/--'): b_ -= 1
                if any(b_ <= l < e_ for l in ls):
                    t = '\n'.join(lines[s_:e_])
                    kind = DECL.match(lines[s_]).group(1)
                    if kind in ('theorem', 'lemma'):
                        n = re.search(r'(?:theorem|lemma)\s+(\S+)', t).group(1)
                        r = sorry_decl(t)
                        if r is None or 'by sorry' in t: return {'error': 'statement does not elaborate: ' + n}, broken + [n]
                        edits.append((s_, e_, r)); broken.append(n)
                    elif kind == 'example':
                        edits.append((s_, e_, 'example : True := trivial')); broken.append('example at %s:%d' % (f, s_ + 1))
                    else:
                        return {'error': 'definition fails: ' + lines[s_]}, broken
            if not edits: return {'error': 'cannot locate ' + f + str(sorted(ls))}, broken
            for s_, e_, r in sorted(edits, reverse=True):
                lines[s_:e_] = [r]
            open(p, 'w').write('\n'.join(lines))
    names = []
    for t in m['targets']:
        ns = None
        for line in open(DST + '/Verif/Props/' + t + '.lean'):
            k = re.match(r'namespace (\S+)', line)
            if k: ns = k.group(1)
            k = re.match(r'theorem (C\d\d+_\S+)', line)
            if k: names.append((ns, k.group(1)))
    chk = DST + '/Chk.lean'
    open(chk, 'w').write('\n'.join('import ' + t for t in targets) + '\n' +
                         '\n'.join('#print axioms %s.%s' % n for n in names) + '\n')
    p = subprocess.run(['lake', 'env', 'lean', chk], cwd=DST, stdout=subprocess.PIPE, stderr=subprocess.STDOUT, text=True)
    failed = []
    for ns, n in names:
        k = re.search(r"'%s\.%s' (depends on axioms: \[[^\]]*\]|does not)" % (re.escape(ns), re.escape(n)), p.stdout)
        if k is None or 'sorryAx' in k.group(1): failed.append(n)
    return {'failed': failed}, broken

def main():
    ms = [json.loads(l) for l in open(sys.argv[1]) if l.strip()]
    only = sys.argv[2:]
    snapshot()
    for m in ms:
        if only and m['id'] not in only: continue
        t0 = time.time()
        r, broken = run(m)
        props = re.findall(r'C\d\d+', m['claim'])
        failed = r.get('failed', [])
        ok = all(any(f.startswith(p + '_') for f in failed) for p in props) and props
        rec = {'id': m['id'], 'definition': m['def'], 'file': 'lean/Verif/' + m['file'], 'edit': '; '.join(a['old'].strip() + '  ==>  ' + a['new'].strip() for a in [m] + m.get('also', [])),
               'claim': m['claim'], 'failed': failed, 'broken_proofs': [b for b in broken if not b.startswith('C')][:12],
               'caught': bool(ok), 'tightened': m.get('tightened', [])}
        if 'error' in r: rec['error'] = r['error']
        rec['seconds'] = round(time.time() - t0)
        with open(LOG, 'a') as f: f.write(json.dumps(rec, ensure_ascii=False) + '\n')
        print(m['id'], 'CAUGHT' if ok else 'SURVIVED', failed[:8], r.get('error', ''), r.get('tail', ''), rec['seconds'], 's', flush=True)
main()
