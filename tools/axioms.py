#!/usr/bin/env python3
"""Write AXIOMS.md: the axioms every theorem of MANIFEST.json depends on (run in /verif after lake build)."""
import json, re, subprocess, collections
m = json.load(open('MANIFEST.json'))
names = [t for c in m['claims'] for t in c['theorems']]
src = 'import Verif\n' + ''.join(f'#print axioms {n}\n' for n in names)
open('/tmp/axioms.lean', 'w').write(src)
out = subprocess.run(['lake', 'env', 'lean', '/tmp/axioms.lean'], cwd='lean', capture_output=True, text=True).stdout
out = re.sub(r'\n\s+', ' ', out)
res = {}
for n in names:
    k = re.search(r"'" + re.escape(n) + r"' (does not depend on any axioms|depends on axioms: \[([^\]]*)\])", out)
    assert k, (n, out[:400])
    res[n] = [] if k.group(2) is None else sorted(x.strip() for x in k.group(2).split(','))
allowed = {'propext', 'Classical.choice', 'Quot.sound'}
bad = {n: a for n, a in res.items() if not set(a) <= allowed}
assert not bad, bad
by = collections.defaultdict(list)
for n, a in res.items(): by[', '.join(a) or 'none'].append(n)
with open('AXIOMS.md', 'w') as f:
    f.write('# Axioms per theorem\n\nOutput of `#print axioms` for every theorem named in MANIFEST.json (tools/axioms.py). No theorem uses an axiom other than\nthe three standard ones of Lean: `propext`, `Classical.choice`, `Quot.sound`.\n')
    for a in sorted(by):
        f.write(f'\n## {a} ({len(by[a])})\n\n' + ''.join(f'* `{n}`\n' for n in by[a]))
print({a: len(v) for a, v in by.items()})
