"""Write AXIOMS.txt: the axioms of every theorem in MANIFEST.json (run in /verif after lake build)."""
import json, os, re, subprocess, tempfile
names = []
for c in json.load(open('MANIFEST.json'))['claims']:
    names += [t for t in c['theorems'] if t not in names]
with tempfile.NamedTemporaryFile('w', suffix='.lean', delete=False) as f:
    f.write('import Verif\n' + ''.join('#print axioms %s\n' % t for t in names))
out = subprocess.run(['lake', 'env', 'lean', f.name], cwd='lean', capture_output=True, text=True).stdout
os.remove(f.name)
found = dict(re.findall(r"'(\S+)' depends on axioms: \[([^\]]*)\]", out))
found.update((t, '') for t in re.findall(r"'(\S+)' does not depend on any axioms", out))
lines = {t: ' '.join(found[t].replace(',', ' ').split()) or 'none' for t in names}
open('AXIOMS.txt', 'w').write(''.join('%s: %s\n' % (t, lines[t]) for t in names))
kinds = sorted(set(lines.values()))
print(len(names), 'theorems', {k: sum(v == k for v in lines.values()) for k in kinds})
