import json,re,glob
C={}
def c(p,status,ths,note=""): C[p]=dict(property=p,status=status,theorems=ths,note=note)
exec(open('/verif/tools/claims.py').read())
props=[json.loads(l)['id'] for l in open('/verif/properties.jsonl')]
src=''.join(open(f).read() for f in glob.glob('/verif/lean/Verif/Props/*.lean'))
names=set(re.findall(r'^theorem (\S+)',src,re.M))
for k,v in C.items():
    assert k in props,k
    for t in v['theorems']: assert t.split('Librrb.')[1] in names,t
json.dump({"claims":[C[p] for p in props if p in C]},open('/verif/MANIFEST.json','w'),indent=1)
ths=[t for p in props if p in C for t in C[p]['theorems']]
mods=sorted('Verif.Props.'+f.split('/')[-1][:-5] for f in glob.glob('/verif/lean/Verif/Props/*.lean'))
open('/verif/lean/Verif/Axioms.lean','w').write(''.join(f'import {m}\n' for m in mods)+"\n/-! # Axioms used by each property theorem (printed at build) -/\n"+''.join(f'#print axioms {t}\n' for t in dict.fromkeys(ths)))
print('missing',[p for p in props if p not in C])
