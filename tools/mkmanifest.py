"""Writes MANIFEST.json from the table below; entries not listed are omitted."""
import json
P='Properties.'
C={}
def c(i,status,thms,note): C[i]=dict(property=i,status=status,theorems=[P+t for t in thms],note=note)
exec(open('/verif/tools/claims.py').read())
json.dump({"claims":[C[k] for k in sorted(C)]},open('/verif/MANIFEST.json','w'),indent=1)
