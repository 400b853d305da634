"""Regenerate MANIFEST.json from the theorem names Cxx_* in lean/Verif/Props and the notes below."""
import re, glob, json, collections, os
root = os.path.dirname(os.path.dirname(os.path.abspath(__file__)))
th = collections.defaultdict(list)
for f in sorted(glob.glob(root + '/lean/Verif/Props/**/*.lean', recursive=True)):
    for m in re.finditer(r'^theorem (C(\d\d+)_\S+)', open(f).read(), re.M):
        th['C' + m.group(2)].append('YL.Props.' + m.group(1))
notes = json.load(open(root + '/tools/notes.json'))
props = [json.loads(l)['id'] for l in open(root + '/properties.jsonl')]
claims = []
for p in props:
    n = notes.get(p, {})
    if not th[p] and n.get('status') != 'not_applicable':
        continue
    claims.append({'property': p, 'status': n.get('status', 'partial'), 'theorems': th[p], 'note': n.get('note', '')})
json.dump({'claims': claims}, open(root + '/MANIFEST.json', 'w'), indent=1, ensure_ascii=False)
missing = [p for p in props if not th[p]]
print(len(claims), 'claims; no theorem yet:', missing)
