#!/usr/bin/env python3
"""Regenerates MANIFEST.json and lean/Verif/Audit.lean from the theorem names in lean/Verif.

A theorem whose name starts with Cnn_ belongs to property Cnn. A property with a theorem ending in
_partial or containing _violated is partial unless overridden in tools/notes.json."""
import glob, json, os, re
root = os.path.dirname(os.path.dirname(os.path.abspath(__file__)))
props = [json.loads(l) for l in open(root + '/properties.jsonl')]
notes = json.load(open(root + '/tools/notes.json'))
thms = {}
for d, _, fs in sorted(os.walk(root + '/lean/Verif')):
    for f in sorted(fs):
        if not f.endswith('.lean') or f == 'Audit.lean':
            continue
        ns = []
        for line in open(os.path.join(d, f)):
            m = re.match(r'namespace (\S+)', line)
            if m:
                ns.append(m.group(1))
            m = re.match(r'end (\S+)', line)
            if m and ns and ns[-1] == m.group(1):
                ns.pop()
            m = re.match(r'(?:@\[[^\]]*\] )?theorem ((C\d+)_\w*)', line)
            if m:
                thms.setdefault(m.group(2), []).append('.'.join(ns + [m.group(1)]))
claims = []
for p in props:
    i = p['id']
    n = notes.get(i, {})
    t = thms.get(i, [])
    if not t and 'status' not in n:
        continue
    st = n.get('status') or ('partial' if any('_partial' in x or '_violated' in x for x in t) else 'proved')
    claims.append({'property': i, 'status': st, 'theorems': t, 'note': n.get('note', '')})
json.dump({'claims': claims}, open(root + '/MANIFEST.json', 'w'), indent=1)
mods = [l for l in open(root + '/lean/Verif.lean') if l.startswith('import') and 'Audit' not in l]
with open(root + '/lean/Verif/Audit.lean', 'w') as o:
    o.write(''.join(mods))
    o.write('\n/-! Axioms of every property theorem (generated by tools/manifest.py). Each line must list at most\n'
            '`propext`, `Classical.choice` and `Quot.sound`. -/\n\n')
    for c in claims:
        for t in c['theorems']:
            o.write('#print axioms %s\n' % t)
for c in claims:
    print(c['property'], c['status'], len(c['theorems']))
print('missing', [p['id'] for p in props if p['id'] not in thms])

# the list of violations in DESIGN.md
viol = []
for f in sorted(glob.glob('lean/Verif/**/*.lean', recursive=True)):
    if 'Audit' in f:
        continue
    t = open(f).read()
    for m in re.finditer(r'/--((?:(?!-/).)*?)-/\s*theorem (C\d+_\w*violated\w*)', t, re.S):
        viol.append((m.group(2), ' '.join(m.group(1).split())))
viol.sort()
lines = []
for n, c in viol:
    c = re.sub(r'^C\d+(,? counterexample:| is violated:| fails)?[:,]? ?', '', c).strip()
    lines.append(f"* `{n}`: {c}")
d = open('DESIGN.md').read()
i = d.index('<!-- violations -->\n') + len('<!-- violations -->\n')
j = d.index('<!-- end -->')
open('DESIGN.md', 'w').write(d[:i] + '\n'.join(lines) + '\n' + d[j:])
