"""Writes MANIFEST.json from the table below: property -> (status, theorems, note)."""
import json
P='Dbml.Props.'
T={}
def c(p,status,ths,note=''):
    T[p]={"property":p,"status":status,"theorems":[P+t for t in ths.split()],"note":note}
exec(open('/verif/tools/claims.py').read())
json.dump({"claims":[T[k] for k in sorted(T)]},open('/verif/MANIFEST.json','w'),indent=1,ensure_ascii=False)
print(len(T))
