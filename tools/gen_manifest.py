"""Writes MANIFEST.json.  Theorems of a claim are all theorems in lean/Verif/Props named Cnn_*."""
import json, re, glob, collections, sys
N = {}   # notes
S = {}   # status
exec(open('/verif/tools/manifest_notes.py').read())
ths = collections.defaultdict(list)
for f in sorted(glob.glob('/verif/lean/Verif/Props/*.lean')):
    txt = open(f).read()
    stack = []
    for line in txt.splitlines():
        if m := re.match(r'namespace (\S+)', line): stack.append(m.group(1))
        elif m := re.match(r'end (\S+)', line):
            if stack and stack[-1] == m.group(1): stack.pop()
        elif m := re.match(r'theorem (C(\d\d)_[\w\']+)', line):
            ths['C' + m.group(2)].append('.'.join(stack) + '.' + m.group(1))
claims = []
for l in open('/verif/properties.jsonl'):
    d = json.loads(l); i = d['id']
    if not ths[i] and i not in S: continue
    claims.append({"property": i, "status": S.get(i, "partial"), "theorems": ths[i], "note": N.get(i, "")})
json.dump({"claims": claims}, open('/verif/MANIFEST.json', 'w'), indent=1)
print(len(claims), 'claims', sum(len(c['theorems']) for c in claims), 'theorems')
