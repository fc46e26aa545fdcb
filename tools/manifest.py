"""Regenerate MANIFEST.json from the theorem names in lean/Verif/Props and tools/status.json."""
import json, re, glob, os
root = os.path.dirname(os.path.dirname(os.path.abspath(__file__)))
props = [json.loads(l) for l in open(root + '/properties.jsonl')]
status = json.load(open(root + '/tools/status.json'))
names = {}
for f in sorted(glob.glob(root + '/lean/Verif/Props/*.lean')):
    ns = []
    for line in open(f):
        m = re.match(r'\s*namespace\s+(\S+)', line)
        if m: ns.append(m.group(1))
        m = re.match(r'\s*end\s+(\S+)', line)
        if m and ns and ns[-1] == m.group(1): ns.pop()
        m = re.match(r'\s*(?:@\[[^\]]*\]\s*)?theorem\s+((C\d+)_\S+)', line)
        if m: names.setdefault(m.group(2), []).append('.'.join(ns + [m.group(1)]))
claims = []
for p in props:
    st = status.get(p['id'])
    if not st or p['id'] not in names: continue
    claims.append({"property": p['id'], "status": st[0], "theorems": names[p['id']], "note": st[1]})
json.dump({"claims": claims}, open(root + '/MANIFEST.json', 'w'), indent=1, ensure_ascii=False)
print(len(claims), 'claims;', sum(len(c['theorems']) for c in claims), 'theorems; missing', [p['id'] for p in props if p['id'] not in status])
