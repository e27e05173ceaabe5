#!/usr/bin/env python3
"""Mutation-test the theorems with mechanically generated edits of the model.

usage: automutate.py list                      number of candidates per file
       automutate.py run out.jsonl seed count  try a random sample of the candidates

A candidate changes one token of one definition under Verif/Model: a numeral by one, an operator, a comparison, a
condition (negated), two neighbouring arguments (exchanged), or it deletes a `require`.  Candidates that no longer
elaborate are discarded.  Failing `example`s are removed, since they are tests; the edit is caught when the proof of a
theorem fails and survives when the whole project still builds.
"""
import json, os, random, re, shutil, subprocess, sys, time
sys.path.insert(0, os.path.dirname(os.path.abspath(__file__)))
ROOT = os.path.dirname(os.path.dirname(os.path.abspath(__file__)))
SRC, BASE, DST = ROOT + '/lean', '/tmp/mutauto/base', '/tmp/mutauto/lean'
DECL = re.compile(r'^(?:@\[[^\]]*\]\s*)?(?:private |protected |noncomputable )*(theorem|lemma|example|def|instance|abbrev|structure|inductive)\b\s*(\S*)')

SWAPS = [(r' \+ ', ' - '), (r' - ', ' + '), (r' \* ', ' + '), (r' / ', ' % '), (r' % ', ' / '),
         (r' < ', ' ≤ '), (r' ≤ ', ' < '), (r' > ', ' ≥ '), (r' ≥ ', ' > '), (r' = ', ' ≠ '), (r' ≠ ', ' = '),
         (r' == ', ' != '), (r' != ', ' == '), (r' && ', ' || '), (r' \|\| ', ' && '), (r' ∧ ', ' ∨ '), (r' ∨ ', ' ∧ '),
         (r' &&& ', ' ||| '), (r' \|\|\| ', ' &&& '), (r' \^\^\^ ', ' ||| '), (r' <<< ', ' >>> '), (r' >>> ', ' <<< '),
         (r'\btrue\b', 'false'), (r'\bfalse\b', 'true'), (r'\bmin\b', 'max'), (r'\bmax\b', 'min'), (r'\bsub\b', 'add'),
         (r'\badd\b', 'sub'), (r'\bmul\b', 'add'), (r'\.1\b', '.2'), (r'\.2\b', '.1'), (r'~~~', ''), (r'\.take\b', '.drop'),
         (r'\.drop\b', '.take'), (r'\.reverse\b', ''), (r'\btoInt\b', 'toNat'), (r'\brotateLeft\b', 'rotateRight'),
         (r'\brotateRight\b', 'rotateLeft'), (r'Le\b', 'Be'), (r'Be\b', 'Le')]

def strip_comments(s):
    """blank out comments, keeping positions"""
    out, i, depth = list(s), 0, 0
    while i < len(s):
        if s.startswith('/-', i): depth += 1
        if depth or s.startswith('--', i) and not depth:
            if depth:
                if s.startswith('-/', i):
                    depth -= 1; out[i] = out[i + 1] = ' '; i += 2; continue
                if out[i] != '\n': out[i] = ' '
                i += 1; continue
            while i < len(s) and s[i] != '\n': out[i] = ' '; i += 1
            continue
        i += 1
    return ''.join(out)

def candidates():
    res = []
    d = SRC + '/Verif/Model'
    for f in sorted(os.path.relpath(os.path.join(r, x), d) for r, _, fs in os.walk(d) for x in fs):
        src = open(d + '/' + f).read()
        t = strip_comments(src)
        lines = t.split('\n')
        pos, offs = 0, []
        for l in lines: offs.append(pos); pos += len(l) + 1
        bounds = [i for i, l in enumerate(lines) if l and not l[0].isspace()] + [len(lines)]
        for a, b in zip(bounds, bounds[1:]):
            m = DECL.match(lines[a])
            if not m or m.group(1) not in ('def', 'abbrev'): continue
            lo, hi = offs[a], offs[b] if b < len(lines) else len(t)
            body = t[lo:hi]
            k = re.search(r':=|\n\s*\|', body)
            if not k: continue
            st = lo + k.start()
            here = []
            def cand(s, e, new, kind): here.append((s, e, new, kind))
            for n in re.finditer(r'(?<![\w.#])(0x[0-9a-fA-F]+|\d+)(?![\w.])', t[st:hi]):
                v = int(n.group(1), 0)
                new = hex(v + 1) if n.group(1).startswith('0x') else str(v + 1)
                cand(st + n.start(), st + n.end(), new, 'numeral')
            for pat, new in SWAPS:
                for n in re.finditer(pat, t[st:hi]): cand(st + n.start(), st + n.end(), new, 'operator')
            for n in re.finditer(r'\bif ((?:(?! then ).)+?) then ', t[st:hi]):
                if ' : ' not in n.group(1): cand(st + n.start(1), st + n.end(1), '¬ (' + n.group(1) + ')', 'condition')
            for n in re.finditer(r'\n *require \(.*\)(?=\n)', t[st:hi]): cand(st + n.start(), st + n.end(), '', 'check')
            for n in re.finditer(r'(?<=[ (])([a-z]\w*(?:\.[12])?) ([a-z]\w*(?:\.[12])?)(?=[\s)])', t[st:hi]):
                if n.group(1) not in ('let', 'if', 'then', 'else', 'fun', 'do', 'match', 'with', 'require') and n.group(1) != n.group(2):
                    cand(st + n.start(), st + n.end(), n.group(2) + ' ' + n.group(1), 'arguments')
            tab = [c for c in here if c[3] == 'numeral']
            if len(tab) > 12:
                keep = set(random.Random(1).sample(range(len(tab)), 8))
                drop = {c for i, c in enumerate(tab) if i not in keep}
                here = [c for c in here if c not in drop]
            for s, e, new, kind in here: res.append((f, m.group(2), s, e, new, kind))
    return res

def decl_at(path, line):
    lines = open(path).read().split('\n')
    bounds = [i for i, l in enumerate(lines) if l and not l[0].isspace()]
    starts = [i for i in bounds if DECL.match(lines[i])]
    s = max([i for i in starts if i < line], default=None)
    if s is None: s = min(starts)
    nxt = [b for b in bounds if b > s]
    # a position inside the comment before a declaration belongs to the next one
    if nxt and nxt[0] < line and not any(s < x < line for x in starts):
        after = [x for x in starts if x >= line - 1]
        if after: s = after[0]
    e = min([b for b in bounds if b > s], default=len(lines))
    m = DECL.match(lines[s])
    return m.group(1), m.group(2), s, e, lines

def build(limit):
    """-> ('ok'|'fail'|'timeout', kind, name, file) and removes failing examples on the way"""
    t0 = time.time()
    while True:
        p = subprocess.Popen(['lake', 'build', 'Verif'], cwd=DST, stdout=subprocess.PIPE, stderr=subprocess.STDOUT, text=True,
                             start_new_session=True)
        examples, verdict = [], None
        try:
            os.set_blocking(p.stdout.fileno(), True)
            for line in p.stdout:
                if time.time() - t0 > limit: verdict = ('timeout', '', '', ''); break
                k = re.search(r'error: (Verif/\S+\.lean):(\d+):\d+', line)
                if not k: continue
                kind, name, s, e, lines = decl_at(DST + '/' + k.group(1), int(k.group(2)))
                if kind == 'example': examples.append((k.group(1), s, e))
                else: verdict = ('fail', kind, name, k.group(1)); break
        finally:
            if p.poll() is None and verdict:
                try: os.killpg(p.pid, 9)
                except ProcessLookupError: pass
            p.wait()
        if verdict: return verdict
        if not examples:
            return ('ok', '', '', '') if p.returncode == 0 else ('fail', '?', '?', '?')
        for f in {x[0] for x in examples}:
            lines = open(DST + '/' + f).read().split('\n')
            for g, s, e in sorted(set(examples), reverse=True):
                if g == f: lines[s:e] = ['example : True := trivial', '']
            open(DST + '/' + f, 'w').write('\n'.join(lines))

def main():
    cs = candidates()
    if sys.argv[1] == 'list':
        n = {}
        for c in cs: n[c[0]] = n.get(c[0], 0) + 1
        print(n, len(cs)); return
    out, seed, count = sys.argv[2], int(sys.argv[3]), int(sys.argv[4])
    done = {(r['file'], r['at'], r['new']) for r in map(json.loads, open(out))} if os.path.exists(out) else set()
    shutil.rmtree(BASE, ignore_errors=True); os.makedirs('/tmp/mutauto', exist_ok=True)
    subprocess.run(['cp', '-a', SRC, BASE], check=True)
    # the tests of the repository are no theorems
    top = open(BASE + '/Verif.lean').read()
    open(BASE + '/Verif.lean', 'w').write('\n'.join(l for l in top.split('\n') if 'Verif.Validation' not in l))
    rnd = random.Random(seed); rnd.shuffle(cs)
    for f, d, s, e, new, kind in cs[:count]:
        if (f, s, new) in done: continue
        shutil.rmtree(DST, ignore_errors=True)
        subprocess.run(['cp', '-a', BASE, DST], check=True)
        p = DST + '/Verif/Model/' + f
        src = open(p).read()
        open(p, 'w').write(src[:s] + new + src[e:])
        a = src.rfind('\n', 0, s + 1 if kind == 'check' else s) + 1
        b = src.find('\n', e)
        t0 = time.time()
        v = build(3000)
        if v[0] == 'fail' and v[1] in ('def', 'abbrev', 'instance', 'structure'):
            v = ('invalid',) + v[1:] if v[3].startswith('Verif/Model') else v
        rec = {'file': f, 'definition': d, 'at': s, 'new': new, 'kind': kind, 'line': src[a:b].strip(), 'old': src[s:e],
               'verdict': {'ok': 'SURVIVED', 'fail': 'CAUGHT', 'timeout': 'TIMEOUT', 'invalid': 'INVALID'}[v[0]],
               'by': v[2] or v[1], 'in': v[3], 'seconds': round(time.time() - t0)}
        with open(out, 'a') as o: o.write(json.dumps(rec, ensure_ascii=False) + '\n')
        print(rec['verdict'], f, d, repr(src[s:e]), '->', repr(new), '|', rec['line'][:80], '|', rec['by'], rec['seconds'], flush=True)
main()
