#!/usr/bin/env python3
"""List every function of /repo's library and example sources and whether a model definition cites its lines.
Usage: coverage.py [--missing]"""
import re, glob, os, sys
root = '/repo'
root_v = os.path.dirname(os.path.dirname(os.path.abspath(__file__)))
cites = {}
hint = {'Examples.lean': 'secret-integers/examples/'}
for f in sorted(glob.glob(root_v + '/lean/Verif/Model/*.lean')):
    text = open(f).read()
    for m in re.finditer(r'`([\w/.-]+\.rs):([0-9][0-9, -]*)((?:`, `[0-9, -]+)*)', text):
        rng = m.group(2) + ',' + re.sub(r'[`]', '', m.group(3))
        for r in re.findall(r'(\d+)(?:\s*-\s*(\d+))?', rng):
            a = int(r[0]); b = int(r[1] or r[0])
            cites.setdefault(m.group(1), []).append((a, b, os.path.basename(f)))
rows = []
for f in sorted(glob.glob(root + '/*/src/**/*.rs', recursive=True) + glob.glob(root + '/*/examples/*.rs')):
    rel = os.path.relpath(f, root)
    lines = open(f).read().split('\n')
    depth_test = None
    for i, l in enumerate(lines):
        m = re.match(r'\s*(?:pub(?:\s*\([^)]*\))?\s+)?(?:const\s+)?(?:unsafe\s+)?fn\s+([\w$]+)', l)
        if not m: continue
        if i and '#[test]' in lines[i-1]: continue
        # end of the body
        d = 0; j = i; seen = False
        while j < len(lines):
            code = lines[j].split('//')[0]
            d += code.count('{') - code.count('}')
            if '{' in code: seen = True
            if (seen and d <= 0) or (not seen and code.rstrip().endswith(';')): break
            j += 1
        base = os.path.basename(rel)
        hit = []
        for c, rs in cites.items():
            if not (rel.endswith(c)): continue
            for a, b, lf in rs:
                if base == 'chacha20.rs' and (lf == 'Examples.lean') != ('examples' in rel): continue
                if base == 'lib.rs' and 'secret-integers' not in rel and c == 'lib.rs': continue
                if a <= j + 1 and b >= i + 1: hit.append(lf)
        body = ' '.join(x.split('//')[0].strip() for x in lines[i:j + 1])
        stub = re.search(r'\{\s*unimplemented!\([^)]*\);?\s*\}\s*$', body) is not None
        rows.append((rel, i + 1, j + 1, m.group(1), seen, sorted(set(hit)), stub))
if '--missing' in sys.argv:
    full = [r for r in rows if r[4]]
    stubs = [r for r in full if r[6]]
    for r in full:
        if not r[5] and not r[6]: print(f'{r[0]}:{r[1]}-{r[2]} {r[3]}')
    rest = [r for r in full if not r[6]]
    print(len(full), 'functions with a body;', len(stubs), 'consist of unimplemented!();',
          sum(1 for r in rest if r[5]), 'of the other', len(rest), 'are cited by a model definition')
else:
    for r in rows: print(r)
