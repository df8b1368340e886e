"""Writes /verif/MANIFEST.json from the theorem names `Cnn_...` in lean/Verif/Props and the notes below."""
import re, json, glob, os
STATUS = {}   # id -> (status, note)
def st(i, s, n=""): STATUS[i] = (s, n)
exec(open('/verif/tools/status.py').read())
th = {}
for f in sorted(glob.glob('/verif/lean/Verif/**/*.lean', recursive=True)):
    txt = open(f).read()
    ns = []
    for line in txt.splitlines():
        m = re.match(r'namespace (\S+)', line)
        if m: ns.append(m.group(1))
        m = re.match(r'end (\S+)', line)
        if m and ns and ns[-1] == m.group(1): ns.pop()
        m = re.match(r'(?:@\[[^\]]*\] *)?(?:protected )?theorem (C\d\d+)_(\S*)', line)
        if m: th.setdefault(m.group(1), []).append('.'.join(ns + [m.group(1) + '_' + m.group(2)]))
ids = [json.loads(l)['id'] for l in open('/verif/properties.jsonl')]
claims = []
for i in ids:
    s, n = STATUS.get(i, (None, ""))
    if s is None:
        s = "proved" if th.get(i) else "partial"
        if not th.get(i): n = "not yet proved"
    if s == "proved" and not th.get(i): s, n = "partial", "not yet proved"
    claims.append(dict(property=i, status=s, theorems=th.get(i, []), note=n))
for i in th:
    assert i in ids, i
json.dump(dict(claims=claims), open('/verif/MANIFEST.json', 'w'), indent=1)
# root module
mods = sorted(f[len('/verif/lean/'):-5].replace('/', '.') for f in glob.glob('/verif/lean/Verif/**/*.lean', recursive=True))
open('/verif/lean/Verif.lean', 'w').write(''.join(f'import {m}\n' for m in mods))
for s in ("proved", "partial", "not_applicable"):
    print(s, [c['property'] for c in claims if c['status'] == s])
