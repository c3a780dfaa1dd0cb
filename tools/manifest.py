import json
C=[]
def c(prop,status,thms,note): C.append(dict(property=prop,status=status,theorems=thms.split(),note=note))
NS="Verif."
exec(open('/verif/tools/claims.py').read())
json.dump({"claims":sorted(C,key=lambda x:x["property"])},open('/verif/MANIFEST.json','w'),indent=1)
print(len(C))
