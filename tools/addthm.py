"""addthm.py ID thm... : append theorems (full names) to a manifest entry. ID:first puts them first."""
import json, sys
m = json.load(open('MANIFEST.json'))
first = sys.argv[1].endswith(':first'); pid = sys.argv[1].split(':')[0]
for c in m['claims']:
    if c['property'] == pid:
        new = [t for t in sys.argv[2:] if t not in c['theorems']]
        c['theorems'] = new + c['theorems'] if first else c['theorems'] + new
json.dump(m, open('MANIFEST.json', 'w'), indent=1, ensure_ascii=False)
