import json,sys
# usage: addprop.py file.json  with {id,title,statement,quantifier,why_tests_cant,anchors,status,note,row:[a,b,c]}
for d in json.load(open(sys.argv[1])):
    row=d.pop('row');st=d.pop('status');note=d.pop('note')
    with open('/verif/properties.jsonl','a') as f: f.write(json.dumps(d)+"\n")
    n=json.load(open('/verif/tools/notes.json')); n[d['id']]={"status":st,"note":note}; json.dump(n,open('/verif/tools/notes.json','w'),indent=1)
    p='/verif/tools/design_table.py'; s=open(p).read()
    s=s.replace("\n}\nimport json","\n'%s':(%r,%r,%r),\n}\nimport json"%(d['id'],*row)); open(p,'w').write(s)
import subprocess; subprocess.run(['python3','/verif/tools/design_table.py'])
