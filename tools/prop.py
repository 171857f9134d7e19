#!/usr/bin/env python3
"""Update or append a property: prop.py ID key=value ... (reads/writes properties.jsonl)."""
import json, sys
path = __file__.rsplit('/', 2)[0] + '/properties.jsonl'
rows = [json.loads(l) for l in open(path) if l.strip()]
pid = sys.argv[1]
row = next((r for r in rows if r['id'] == pid), None)
if row is None:
    row = {'id': pid, 'title': '', 'statement': '', 'quantifier': '', 'why_tests_cant': '', 'anchors': []}
    rows.append(row)
for kv in sys.argv[2:]:
    k, v = kv.split('=', 1)
    row[k] = v.split('|') if k == 'anchors' else v
assert all(row[k] for k in ('title', 'statement', 'quantifier', 'why_tests_cant', 'anchors')), row
with open(path, 'w') as f:
    for r in rows:
        f.write(json.dumps(r, ensure_ascii=False) + '\n')
