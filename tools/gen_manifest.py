"""Regenerates MANIFEST.json and lean/Verif.lean.

Theorems are collected from lean/Verif/Props/*.lean: every `theorem Cnn_...` belongs to property
Cnn.  STATUS overrides the default status ("proved") and gives the note.
"""
import json, re, glob, os
root = os.path.dirname(os.path.dirname(os.path.abspath(__file__)))
exec(open(os.path.join(root, 'tools', 'status.py')).read())
ths = {}
for f in sorted(glob.glob(os.path.join(root, 'lean/Verif/Props/*.lean'))):
    src = open(f).read()
    ns = []
    for line in src.split('\n'):
        m = re.match(r'namespace (\S+)', line)
        if m: ns.append(m.group(1))
        m = re.match(r'end (\S+)', line)
        if m and ns and ns[-1] == m.group(1): ns.pop()
        m = re.match(r'(?:@\[\w+\] )?theorem (C\d\d+)_(\S+)', line)
        if m:
            ths.setdefault(m.group(1), []).append('.'.join(ns + [m.group(1) + '_' + m.group(2)]))
props = [json.loads(l) for l in open(os.path.join(root, 'properties.jsonl'))]
claims = []
for p in props:
    i = p['id']
    st, note = STATUS.get(i, (None, ''))
    if i not in ths:
        if st == 'not_applicable':
            claims.append(dict(property=i, status=st, theorems=[], note=note))
        else:
            print('no theorem yet for', i)
        continue
    claims.append(dict(property=i, status=st or 'proved', theorems=ths[i], note=note))
json.dump({'claims': claims}, open(os.path.join(root, 'MANIFEST.json'), 'w'), indent=1, ensure_ascii=False)
mods = []
for d in ('Model', 'Spec', 'Lemmas', 'Props'):
    for f in sorted(glob.glob(os.path.join(root, 'lean/Verif', d, '*.lean'))):
        mods.append('import Verif.%s.%s' % (d, os.path.basename(f)[:-5]))
open(os.path.join(root, 'lean/Verif.lean'), 'w').write('\n'.join(mods) + '\n')
print(sum(len(c['theorems']) for c in claims), 'theorems,', len(claims), 'claims')
