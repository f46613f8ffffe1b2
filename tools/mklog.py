"""Append mutation results (/tmp/mut/results*.jsonl) to seeded/LOG.jsonl, once per id.
tools/tightened.json says what was changed in /verif after an attempt."""
import json, glob, os
root = os.path.dirname(os.path.dirname(os.path.abspath(__file__)))
log = f'{root}/seeded/LOG.jsonl'
have = {json.loads(l)['id'] for l in open(log) if l.strip()}
tight = json.load(open(f'{root}/tools/tightened.json'))
with open(log, 'a') as g:
    for f in sorted(glob.glob('/tmp/mut/results*.jsonl')):
        for l in open(f):
            r = json.loads(l)
            if r['id'] in have or 'error' in r:
                continue
            have.add(r['id'])
            t = tight.get(r['id'], {})
            o = dict(id=r['id'], definition=r['definition'], edit=t.get('edit', r['edit']), claim=r['claim'],
                     failed=r['failed'], tightened=t.get('tightened', []))
            if 'note' in t:
                o['note'] = t['note']
            g.write(json.dumps(o, ensure_ascii=False) + '\n')
print(len(have))
