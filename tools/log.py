#!/usr/bin/env python3
"""log.py OUT.jsonl [NOTES.json]: append the results of tools/mutate.py to seeded/LOG.jsonl.
NOTES maps "def|new" to {"tightened": [...], "note": "..."}."""
import json, sys
notes = json.load(open(sys.argv[2])) if len(sys.argv) > 2 else {}
with open('/verif/seeded/LOG.jsonl', 'a') as f:
    for l in open(sys.argv[1]):
        d = json.loads(l)
        n = notes.get(d['def'] + '|' + d['new'], {})
        f.write(json.dumps({"definition": f"{d['file']}: {d['def']}", "edit": f"{d['old']}  ==>  {d['new']}",
            "claim_broken": d['claim'], "theorems_failed": d['failed'], "theorems_tightened": n.get('tightened', []),
            **({"note": n['note']} if 'note' in n else {})}) + '\n')
