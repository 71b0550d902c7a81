#!/bin/sh
# Writes tools/axioms.txt for the theorems of the manifest (needs a built lean/).
cd "$(dirname "$0")/../lean" && python3 - <<'P'
import json
m=json.load(open('../MANIFEST.json'))
open('/tmp/ax.lean','w').write('import Verif\n'+''.join('#print axioms %s\n'%t for c in m['claims'] for t in c['theorems']))
P
lake env lean /tmp/ax.lean > /tmp/ax.out 2>&1
python3 - <<'P'
import re
s=open('/tmp/ax.out').read().replace('\n ',' ')
out=[]
for m in re.finditer(r"'([^']+(?:'[^' ]*)*)' (does not depend on any axioms|depends on axioms: \[([^\]]*)\])",s):
    k='K' if not m.group(3) else ''.join({'propext':'P','Quot.sound':'Q','Classical.choice':'C'}.get(x.strip(),'!'+x.strip()) for x in m.group(3).split(','))
    out.append(m.group(1)+'\t'+k)
open('../tools/axioms.txt','w').write('\n'.join(out)+'\n')
P
