#!/usr/bin/env python3
"""Writes MANIFEST.json from the table below, checking that every theorem name exists in lean/Verif/Props."""
import json, os, re
root = os.path.join(os.path.dirname(os.path.abspath(__file__)), '..')
names = set()
for d, _, fs in os.walk(os.path.join(root, 'lean/Verif')):
    for f in fs:
        if f.endswith('.lean'):
            names |= set(re.findall(r'^theorem\s+(\S+)', open(os.path.join(d, f)).read(), re.M))
T = []
def c(pid, status, thms, note):
    for t in thms.split():
        assert t in names, (pid, t)
    T.append({"property": pid, "status": status, "theorems": ["Verif." + t for t in thms.split()], "note": note})
exec(open(os.path.join(root, 'tools/claims.py')).read())
json.dump({"claims": T}, open(os.path.join(root, 'MANIFEST.json'), 'w'), indent=1, ensure_ascii=False)
print(len(T), 'claims')
