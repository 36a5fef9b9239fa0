#!/usr/bin/env python3
"""Write /verif/seeded/LOG.jsonl from mutant lists and results: log.py tight.json m1.json r1.jsonl [m2.json r2.jsonl ...]"""
import json, sys
tight = json.load(open(sys.argv[1]))
out = []
for mf, rf in zip(sys.argv[2::2], sys.argv[3::2]):
    m = {x['id']: x for x in json.load(open(mf))}
    for l in open(rf):
        r = json.loads(l)
        x = m[r['id']]
        t = tight.get(r['id'], {})
        out.append({
            'id': r['id'], 'file': x['file'], 'definition': x['definition'], 'edit': x['edit'],
            'claim_broken': (', '.join(x['props']) + ': ' if x['props'] else 'none (control): ') + x['claim'],
            'theorems_failed': r['failed'],
            'verdict': r['verdict'] if x['props'] else 'control',
            'theorems_tightened': t.get('theorems', []), 'note': t.get('note', '')})
with open('/verif/seeded/LOG.jsonl', 'w') as f:
    for o in out:
        f.write(json.dumps(o, ensure_ascii=False) + '\n')
print(len(out), sum(o['verdict'] == 'SURVIVED' for o in out))
