"""Append property records read from stdin (a Python list of dicts) to properties.jsonl, replacing records of the same id."""
import json, sys
new = eval(sys.stdin.read())
recs = [json.loads(l) for l in open('/verif/properties.jsonl')]
ids = {p['id'] for p in new}
recs = [r for r in recs if r['id'] not in ids] + new
recs.sort(key=lambda r: int(r['id'][1:]))
open('/verif/properties.jsonl', 'w').write(''.join(json.dumps(p) + "\n" for p in recs))
