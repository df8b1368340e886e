#!/usr/bin/env python3
"""Write AXIOMS.md from the output of `#print axioms` for every theorem of the manifest."""
import json,subprocess,re,collections
m=json.load(open('/verif/MANIFEST.json'))
th=[t for c in m['claims'] for t in c['theorems']]
src="import Verif\n"+"\n".join(f"#print axioms {t}" for t in th)+"\n"
open('/tmp/axioms_check.lean','w').write(src)
out=subprocess.run(['lake','env','lean','/tmp/axioms_check.lean'],cwd='/verif/lean',capture_output=True,text=True).stdout
ax={}
for l in re.sub(r'\n +',' ',out).split('\n'):
    k=re.match(r"'(.*)' depends on axioms: \[(.*)\]",l)
    if k: ax[k[1]]=k[2]
    k=re.match(r"'(.*)' does not depend on any axioms",l)
    if k: ax[k[1]]='none'
assert set(ax)==set(th),sorted(set(th)-set(ax))[:5]
full='propext, Classical.choice, Quot.sound'
o=["# Axioms of every theorem in the manifest","","Generated by `tools/axioms.py` from `#print axioms`. Unless listed, a theorem depends on",f"`{full}` and nothing else.","",f"* {sum(v==full for v in ax.values())} theorems: `{full}`"]
g=collections.defaultdict(list)
for k,v in ax.items():
    if v!=full: g[v].append(k)
for v,ks in g.items():
    o.append(f"* {len(ks)} theorems: `{v}`: "+", ".join(f"`{k}`" for k in ks))
open('/verif/AXIOMS.md','w').write("\n".join(o)+"\n")
print({v:len(k) for v,k in g.items()},len(th))
