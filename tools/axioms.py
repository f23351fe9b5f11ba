#!/usr/bin/env python3
"""Writes AXIOMS.txt: the axioms every manifest theorem depends on (needs a built project)."""
import json,re,subprocess,tempfile,os
root=os.path.dirname(os.path.dirname(os.path.abspath(__file__)))
m=json.load(open(root+'/MANIFEST.json'))['claims']
with tempfile.NamedTemporaryFile('w',suffix='.lean',delete=False) as f:
    f.write('import Verif\n'+''.join(f'#print axioms {t}\n' for c in m for t in c['theorems']))
t=subprocess.run(['lake','env','lean',f.name],cwd=root+'/lean',capture_output=True,text=True).stdout
os.unlink(f.name)
t=re.sub(r'\n\s+',' ',t)
out=[]
for l in t.splitlines():
    a=re.match(r"'Cards\.Props\.(.*)' (?:depends on axioms: \[(.*)\]|does not depend on any axioms)",l)
    out.append(f"{a.group(1)}: {a.group(2) or 'none'}" if a else 'UNEXPECTED '+l)
open(root+'/AXIOMS.txt','w').write('\n'.join(out)+'\n')
