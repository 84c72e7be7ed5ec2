"""Writes DESIGN.md: the head, the findings, and a table of the properties with the model files and theorem files they rest on."""
import json, re, glob, collections, os
root = os.path.dirname(os.path.dirname(os.path.abspath(__file__)))
props = [json.loads(l) for l in open(f'{root}/properties.jsonl')]
man = {c['property']: c for c in json.load(open(f'{root}/MANIFEST.json'))['claims']}
where = {}
for f in sorted(glob.glob(f'{root}/lean/Verif/**/*.lean', recursive=True)):
    for m in re.finditer(r'^(?:private )?theorem ([\w.\']+)', open(f).read(), re.M):
        where.setdefault(m.group(1).split('.')[-1], f[len(root) + 12:-5])
out = open(f'{root}/tools/design_head.md').read() + open(f'{root}/tools/findings.md').read()
out += '\n## Table of properties\n\nWhat is modelled is given by the source anchors, how it is proved by the files of the theorems.\n\n| property | title | source modelled | theorems in | status |\n|---|---|---|---|---|\n'
for p in props:
    c = man.get(p['id'], {})
    files = sorted({where.get(t.split('.')[-1], '?') for t in c.get('theorems', [])})
    anchors = sorted({re.sub(r'^src/fixit/', '', a) for a in p['anchors']})
    out += f"| {p['id']} | {p['title']} | {', '.join('`'+a+'`' for a in anchors)} | {', '.join(files)} | {c.get('status', 'planned')} |\n"
open(f'{root}/DESIGN.md', 'w').write(out)
