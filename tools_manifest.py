#!/usr/bin/env python3
"""Generates MANIFEST.json; theorem names are checked against the sources."""
import json, re, glob, os
root = os.path.dirname(os.path.abspath(__file__))
names = set()
for f in glob.glob(root + '/lean/Verif/**/*.lean', recursive=True):
    stack = []
    for line in open(f):
        m = re.match(r'namespace (\S+)', line)
        if m: stack.append(m.group(1)); continue
        m = re.match(r'end (\S+)', line)
        if m and stack and stack[-1] == m.group(1): stack.pop(); continue
        m = re.match(r'(?:private )?(?:theorem|lemma) (\S+)', line)
        if m:
            full = '.'.join(stack + [m.group(1)])
            if m.group(1).startswith('_root_.'): full = m.group(1)[7:]
            if full.startswith('Kindr.'): names.add(full[6:])
claims = json.load(open(root + '/manifest_src.json'))
out, listed = [], set()
props = [json.loads(l)['id'] for l in open(root + '/properties.jsonl') if l.strip()]
for p in props:
    if p not in claims:
        print('no claim for', p); continue
    c = claims[p]
    full = []
    for t in c['theorems']:
        cand = [n for n in names if n == t] or [n for n in names if n.split('.')[-1] == t]
        if len(cand) != 1: print('MISSING OR AMBIGUOUS', p, t, cand); continue
        full.append(cand[0]); listed.add(cand[0])
    out.append({"property": p, "status": c['status'], "theorems": ['Kindr.' + t for t in full], "note": c['note']})
json.dump({"claims": out}, open(root + '/MANIFEST.json', 'w'), indent=1, ensure_ascii=False)
print('unlisted:', sorted(n for n in names if re.match(r'(\w+\.)?C\d\d', n) and n not in listed))
