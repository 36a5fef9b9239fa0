import re,glob,json,collections
thms=collections.defaultdict(list)
for f in sorted(glob.glob('/verif/lean/Verif/Props/*.lean')):
    for m in re.finditer(r'^theorem\s+(C(\d\d+)_\S+)',open(f).read(),re.M):
        thms['C'+m.group(2)].append('Props.'+m.group(1))
props=[json.loads(l) for l in open('/verif/properties.jsonl')]
try: notes=json.load(open('/verif/tools/notes.json'))
except FileNotFoundError: notes={}
out=[]
for p in props:
    i=p['id']; t=thms.get(i,[])
    st='proved'
    if not t: st='partial'
    elif any('_partial' in x or '_false' in x for x in t): st='partial'
    n=notes.get(i,{})
    out.append({'property':i,'status':n.get('status',st),'theorems':t,'note':n.get('note','' if t else 'not yet proved')})
json.dump({'claims':out},open('/verif/MANIFEST.json','w'),indent=1)
print([(o['property'],o['status'],len(o['theorems'])) for o in out])
import os
mods=[]
for d in ['Spec','Model','Proofs','Props']:
    for f in sorted(glob.glob(f'/verif/lean/Verif/{d}/*.lean')):
        mods.append('Verif.'+d+'.'+os.path.basename(f)[:-5])
open('/verif/lean/Verif.lean','w').write(''.join(f'import {m}\n' for m in mods))
