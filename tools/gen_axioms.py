#!/usr/bin/env python3
"""Write AXIOMS.md: the axioms each theorem of MANIFEST.json depends on (run after lake build)."""
import json,re,subprocess,os,tempfile
root=os.path.dirname(os.path.dirname(os.path.abspath(__file__)))
names=[t for c in json.load(open(root+'/MANIFEST.json'))['claims'] for t in c['theorems']]
seen=list(dict.fromkeys(names))
with tempfile.NamedTemporaryFile('w',suffix='.lean',delete=False) as f:
    f.write('import Verif\n'+''.join(f'#print axioms {n}\n' for n in seen))
out=subprocess.run(['lake','env','lean',f.name],cwd=root+'/lean',capture_output=True,text=True).stdout
out=re.sub(r'\n\s+',' ',out)
groups={}
for m in re.finditer(r"'([^']+(?:'(?= (?:dep|does)))?)' (?:depends on axioms: \[(.*?)\]|does not depend on any axioms)",out):
    groups.setdefault(m.group(2) or 'none',[]).append(m.group(1))
n=sum(map(len,groups.values()))
assert n==len(seen),[l for l in out.splitlines() if not l.startswith("'")]+[x for x in seen if x not in sum(groups.values(),[])]
with open(root+'/AXIOMS.md','w') as f:
    f.write('# Axioms of each theorem (`#print axioms`, generated by tools/gen_axioms.py)\n')
    for g in sorted(groups,key=len):
        f.write(f'\n## {g} ({len(groups[g])})\n'+', '.join(f'`{x}`' for x in groups[g])+'\n')
print(n,{g:len(v) for g,v in groups.items()})
