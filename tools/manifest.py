#!/usr/bin/env python3
"""Regenerate MANIFEST.json: theorem names are collected from lean/Verif/Props/*.lean
(`theorem Cnn_...` with the enclosing namespaces), status and note come from tools/status.json."""
import glob, json, re, os
root = os.path.dirname(os.path.dirname(os.path.abspath(__file__)))
thms = {}
for f in sorted(glob.glob(root + '/lean/Verif/Props/*.lean')):
    stack = []
    for line in open(f):
        m = re.match(r'(namespace|section)\s*(\S*)', line)
        if m:
            stack.append((m.group(1), m.group(2)))
        elif re.match(r'noncomputable section', line):
            stack.append(('section', ''))
        elif re.match(r'mutual', line):
            stack.append(('mutual', ''))
        elif re.match(r'end\b', line) and stack:
            stack.pop()
        m = re.match(r'(?:@\[[^\]]*\]\s*)?theorem\s+(\S+)', line)
        if m:
            name = m.group(1)
            c = re.search(r'(?:^|\.)(C\d\d\d?)_', name)
            if c:
                ns = [n for k, n in stack if k == 'namespace']
                thms.setdefault(c.group(1), []).append('.'.join(ns + [name]))
status = json.load(open(root + '/tools/status.json'))
claims = []
for line in open(root + '/properties.jsonl'):
    p = json.loads(line)['id']
    s = status.get(p, {})
    t = thms.get(p, [])
    st = s.get('status', 'proved')
    if not t and st != 'not_applicable':
        continue
    claims.append({'property': p, 'status': st, 'theorems': t, 'note': s.get('note', '')})
unknown = set(thms) - {json.loads(l)['id'] for l in open(root + '/properties.jsonl')}
assert not unknown, unknown
json.dump({'claims': claims}, open(root + '/MANIFEST.json', 'w'), indent=1, ensure_ascii=False)
print(len(claims), 'claims', sum(len(c['theorems']) for c in claims), 'theorems')
