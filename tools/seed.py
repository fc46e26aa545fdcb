"""Try wrong versions of the model: for each edit in a JSON-lines file, apply it to a scratch copy of
the Lean project, build, and append a line to seeded/LOG.jsonl saying which declarations fail.

usage: seed.py EDITS.jsonl    (each line: id, file, definition, old, new, breaks)
Dependencies of the property theorems are read from /tmp/seedtools/deps.txt when present."""
import json, os, re, shutil, subprocess, sys, time
root = os.path.dirname(os.path.dirname(os.path.abspath(__file__)))
scratch = '/tmp/seed/lean'
base = '/tmp/seed/base'
log = root + '/seeded/LOG.jsonl'

def decl_at(path, line):
    lines = open(path).read().split('\n')
    ns, name = [], None
    for i, l in enumerate(lines[:line]):
        m = re.match(r'namespace\s+(\S+)', l)
        if m: ns.append(m.group(1))
        m = re.match(r'end\s+(\S+)', l)
        if m and ns and ns[-1] == m.group(1): ns.pop()
        m = re.match(r'(?:@\[[^\]]*\]\s*)?(?:private\s+|protected\s+|noncomputable\s+)*(theorem|def|instance|lemma|example|structure)\b\s*(\S*)', l)
        if m:
            name = ('example at line %d' % (i + 1)) if m.group(1) == 'example' else '.'.join(ns + [m.group(2)])
    return name

deps = {}
if os.path.exists('/tmp/seedtools/deps.txt'):
    for l in open('/tmp/seedtools/deps.txt'):
        n, d = l.rstrip('\n').split('|')
        deps[n] = set(d.split())

# one snapshot of the project for all edits
subprocess.run(['flock', '/tmp/build.lock', 'bash', '-c', 'rm -rf %s && mkdir -p /tmp/seed && cp -a %s/lean %s' % (base, root, base)], check=True)
done = set()
if os.path.exists(log):
    for l in open(log): done.add(json.loads(l)['id'])
for l in open(sys.argv[1]):
    e = json.loads(l)
    if e['id'] in done: continue
    subprocess.run(['bash', '-c', 'rm -rf %s && cp -a %s %s' % (scratch, base, scratch)], check=True)
    path = scratch + '/' + e['file']
    s = open(path).read()
    if s.count(e['old']) != 1:
        print(e['id'], 'edit does not apply', s.count(e['old'])); continue
    open(path, 'w').write(s.replace(e['old'], e['new']))
    t = time.time()
    r = subprocess.run(['flock', '/tmp/build.lock', 'timeout', '2400', 'lake', 'build'], cwd=scratch, capture_output=True, text=True)
    out = r.stdout + r.stderr
    failed = []
    for m in re.finditer(r'error: (Verif/\S+?\.lean):(\d+):', out):
        d = decl_at(scratch + '/' + m.group(1), int(m.group(2)))
        item = '%s (%s)' % (d, m.group(1)[6:-5])
        if item not in failed: failed.append(item)
    bare = set(f.split(' (')[0] for f in failed)
    claims = sorted(n.split('.')[-1] for n, d in deps.items() if d & bare)
    rec = {"id": e['id'], "definition": e['definition'], "file": e['file'], "edit": {"old": e['old'], "new": e['new']},
           "claim": e['breaks'], "failed": failed, "property_theorems_lost": claims,
           "caught": bool(failed), "tightened": []}
    open(log, 'a').write(json.dumps(rec, ensure_ascii=False) + '\n')
    print(e['id'], 'caught' if failed else 'NOT CAUGHT', r.returncode, '%.0fs' % (time.time() - t), failed[:4], claims[:8], flush=True)
