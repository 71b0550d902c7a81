# Puts DESIGN.md together: python3 tools/design.py (after tools/man.py)
import json,re,os
root=os.path.join(os.path.dirname(__file__),'..')
head=open(root+'/tools/design_head.md').read()
props=[json.loads(l) for l in open(root+'/properties.jsonl')]
man={c['property']:c for c in json.load(open(root+'/MANIFEST.json'))['claims']}
exec(open(root+'/tools/plan.py').read())   # PLAN: id -> (modelled, proof)
ax={}
for l in open(root+'/tools/axioms.txt'):
    a,b=l.rstrip('\n').split('\t'); ax[a]=b
o=[head,'## Plan per property\n\n| id | property | modelled | how it is proved | status |\n|---|---|---|---|---|\n']
for p in props:
    m,h=PLAN[p['id']]
    o.append('| %s | %s | %s | %s | %s |\n'%(p['id'],p['title'],m,h,man[p['id']]['status']))
o.append('\n## Notes per property (as in MANIFEST.json)\n\n')
for p in props: o.append('* **%s** %s\n'%(p['id'],man[p['id']]['note']))
o.append('\n## Axioms per theorem\n\nK = none, P = propext, Q = Quot.sound, C = Classical.choice.\n\n')
for p in props:
    o.append('* **%s**: '%p['id']+', '.join('`%s` (%s)'%(t.replace('Verif.',''),ax.get(t,'?')) for t in man[p['id']]['theorems'])+'\n')
open(root+'/DESIGN.md','w').write(''.join(o))
print('missing axioms:',[t for c in man.values() for t in c['theorems'] if t not in ax])
