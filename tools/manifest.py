#!/usr/bin/env python3
"""Regenerates lean/Verif.lean (imports) and MANIFEST.json.

Every property theorem in lean/Verif/Props has a doc comment that begins with the ids of the
properties it belongs to; notes and status overrides come from tools/notes.json."""
import json, os, re
R = os.path.dirname(os.path.dirname(os.path.abspath(__file__)))
V = os.path.join(R, 'lean', 'Verif')
mods = []
for d, _, fs in os.walk(V):
    for f in fs:
        if f.endswith('.lean'):
            mods.append('Verif.' + os.path.relpath(os.path.join(d, f), V)[:-5].replace('/', '.'))
open(os.path.join(R, 'lean', 'Verif.lean'), 'w').write(''.join(f'import {m}\n' for m in sorted(mods)))
thms = {}
for f in sorted(os.listdir(os.path.join(V, 'Props'))):
    s = open(os.path.join(V, 'Props', f)).read()
    ns = re.search(r'^namespace (\S+)', s, re.M).group(1)
    for m in re.finditer(r'/--((?:(?!-/).)*?)-/\s*(?:@\[[^\]]*\]\s*)?theorem (\S+)', s, re.S):
        head = re.match(r'\s*((?:C\d\d\d?[,\s–and]*)+)', m.group(1))
        if not head:
            print('no property id:', f, m.group(2)); continue
        ids = re.findall(r'C\d+', head.group(1))
        rng = re.match(r'\s*C(\d+)–C(\d+)', m.group(1))
        if rng:
            ids = [f'C{i:02d}' for i in range(int(rng.group(1)), int(rng.group(2)) + 1)]
        for i in ids:
            thms.setdefault(i, []).append(ns + '.' + m.group(2))
    n = len(re.findall(r'^theorem ', s, re.M)); k = len(re.findall(r'/--((?:(?!-/).)*?)-/\s*(?:@\[[^\]]*\]\s*)?theorem (\S+)', s, re.S))
    if n != k: print('undocumented theorems in', f, n, k)
notes = json.load(open(os.path.join(R, 'tools', 'notes.json')))
claims = []
for line in open(os.path.join(R, 'properties.jsonl')):
    p = json.loads(line)['id']; t = thms.get(p, []); n = notes.get(p, {})
    if not t and 'status' not in n:
        continue
    st = n.get('status') or ('partial' if any(x.endswith(('_partial', '_violated')) for x in t) else 'proved')
    claims.append({'property': p, 'status': st, 'theorems': t, 'note': n.get('note', '')})
json.dump({'claims': claims}, open(os.path.join(R, 'MANIFEST.json'), 'w'), indent=1, ensure_ascii=False)
print({s: [c['property'] for c in claims if c['status'] == s] for s in ('proved', 'partial', 'not_applicable')})

# Section 4 of DESIGN.md: one line per disagreement, from the doc comments of the *_violated theorems.
lines = []
for f in sorted(os.listdir(os.path.join(V, 'Props'))):
    s = open(os.path.join(V, 'Props', f)).read()
    for m in re.finditer(r'/--((?:(?!-/).)*?)-/\s*(?:@\[[^\]]*\]\s*)?theorem (\S+_violated)', s, re.S):
        lines.append(f"* `{m.group(2)}` ({f}): " + ' '.join(m.group(1).split()))
lines.sort(key=lambda l: re.search(r'C\d+', l).group(0))
D = os.path.join(R, 'DESIGN.md'); t = open(D).read()
b, e = '<!-- generated: disagreements -->', '<!-- end -->'
i, j = t.index(b) + len(b), t.index(e)
open(D, 'w').write(t[:i] + '\n' + '\n'.join(lines) + '\n' + t[j:])
