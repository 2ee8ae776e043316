"""Writes /verif/AXIOMS.md: the axioms of every theorem named in MANIFEST.json (run after lake build)."""
import json, re, subprocess
names = [t for c in json.load(open('/verif/MANIFEST.json'))['claims'] for t in c['theorems']]
src = 'import Verif\n' + ''.join(f'#print axioms {n}\n' for n in names)
open('/tmp/axioms.lean', 'w').write(src)
out = subprocess.run(['lake', 'env', 'lean', '/tmp/axioms.lean'], cwd='/verif/lean', capture_output=True, text=True).stdout
out = re.sub(r'\n\s+', ' ', out)
rows = []
for l in out.splitlines():
    m = re.match(r"'(.*)' depends on axioms: \[(.*)\]", l)
    if m:
        rows.append((m.group(1), m.group(2)))
    else:
        m = re.match(r"'(.*)' does not depend on any axioms", l)
        rows.append((m.group(1), 'none') if m else ('UNEXPECTED', l))
assert len(rows) == len(names), (len(rows), len(names))
allowed = {'propext', 'Classical.choice', 'Quot.sound', 'none'}
bad = [r for r in rows if not set(r[1].split(', ')) <= allowed]
assert not bad, bad
with open('/verif/AXIOMS.md', 'w') as f:
    f.write('# Axioms of the theorems in MANIFEST.json\n\nGenerated by `tools/axioms.py` from `#print axioms`.\n\n')
    for r in rows:
        f.write(f'- `{r[0]}`: {r[1]}\n')
print(len(rows), 'theorems')
