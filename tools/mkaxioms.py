# regenerate AXIOMS.md: run from anywhere after `lake build`
import json,subprocess,re,tempfile
cl=json.load(open('/verif/MANIFEST.json'))['claims']
ths=[]
for c in cl:
    for t in c['theorems']:
        if t not in ths: ths.append(t)
f='/tmp/axioms_check.lean'
open(f,'w').write('import Verif\n'+''.join('#print axioms %s\n'%t for t in ths))
r=subprocess.run('cd /verif/lean && lake env lean '+f,shell=True,capture_output=True,text=True)
out=re.sub(r'\n\s+',' ',r.stdout)
g={}
for l in out.splitlines():
    m=re.match(r"'(\S+)' depends on axioms: \[(.*)\]",l)
    if m: g[m.group(1)]=m.group(2)
    m=re.match(r"'(\S+)' does not depend on any axioms",l)
    if m: g[m.group(1)]='none'
assert set(g)==set(ths),set(ths)-set(g)
ok={'propext','Classical.choice','Quot.sound','none'}
for t,a in g.items(): assert set(a.split(', '))<=ok,(t,a)
open('/verif/AXIOMS.md','w').write('# Axioms per theorem (output of `#print axioms`)\n\n'+''.join('* `%s`: %s\n'%(t,g[t]) for t in ths))
print(len(ths))
