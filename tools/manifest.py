"""Regenerate MANIFEST.json from the theorem names in lean/Verif/Props and notes.json."""
import json, re, glob, os
root = os.path.dirname(os.path.dirname(os.path.abspath(__file__)))
notes = json.load(open(os.path.join(root, 'tools', 'notes.json')))
by = {}
for f in sorted(glob.glob(os.path.join(root, 'lean/Verif/Props/**/*.lean'), recursive=True)):
    ns = []
    for line in open(f):
        m = re.match(r'namespace (\S+)', line)
        if m:
            ns.append(m.group(1))
        m = re.match(r'end (\S+)', line)
        if m and ns and ns[-1] == m.group(1):
            ns.pop()
        m = re.match(r'(?:protected )?theorem (C\d\d+)_(\S+)', line)
        if m and not m.group(2).startswith('aux'):
            by.setdefault(m.group(1), []).append('.'.join(ns + ['%s_%s' % m.groups()]))
claims = []
for line in open(os.path.join(root, 'properties.jsonl')):
    pid = json.loads(line)['id']
    ths = by.get(pid, [])
    if not ths:
        continue
    status, note = notes.get(pid, ['proved', ''])
    claims.append({'property': pid, 'status': status, 'theorems': ths, 'note': note})
json.dump({'claims': claims}, open(os.path.join(root, 'MANIFEST.json'), 'w'), indent=1, ensure_ascii=False)
print(len(claims), 'claims', sum(len(c['theorems']) for c in claims), 'theorems')
missing = sorted(set(by) - {c['property'] for c in claims})
print('theorems without property:', missing)
