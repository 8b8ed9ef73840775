"""Writes MANIFEST.json: theorems are collected from lean/Verif/**/Props*.lean, notes from notes.json."""
import glob, json, os, re
root = os.path.dirname(os.path.dirname(os.path.abspath(__file__)))
thms = {}
for f in sorted(glob.glob(root + '/lean/Verif/**/Props*.lean', recursive=True)):
    ns = []
    for line in open(f):
        m = re.match(r'namespace (\S+)', line)
        if m: ns.append(m.group(1))
        m = re.match(r'end (\S+)', line)
        if m and ns and ns[-1] == m.group(1): ns.pop()
        m = re.match(r'theorem (C\d+_\S+)', line)
        if m:
            name = m.group(1)
            thms.setdefault(name.split('_')[0], []).append('.'.join(ns + [name]))
notes = json.load(open(root + '/tools/notes.json'))
claims = []
for line in open(root + '/properties.jsonl'):
    p = json.loads(line)['id']
    ts = thms.get(p, [])
    n = notes.get(p, {})
    if not ts: continue
    partial = any(t.endswith('_partial') or t.endswith('_counterexample') for t in ts)
    status = n.get('status', 'partial' if partial else 'proved')
    claims.append({'property': p, 'status': status, 'theorems': ts, 'note': n.get('note', '')})
json.dump({'claims': claims}, open(root + '/MANIFEST.json', 'w'), indent=1)
for c in claims: print(c['property'], c['status'], len(c['theorems']))
print('missing:', [l for l in (json.loads(x)['id'] for x in open(root + '/properties.jsonl')) if l not in thms])
