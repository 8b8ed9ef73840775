"""usage: note.py <<< JSON of {id: note or {note,status}} : merges into notes.json"""
import json, sys
p = '/verif/tools/notes.json'
d = json.load(open(p))
for k, v in json.load(sys.stdin).items():
    d[k] = v if isinstance(v, dict) else {"note": v}
json.dump(d, open(p, 'w'), indent=1, ensure_ascii=False)
