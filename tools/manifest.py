"""Write MANIFEST.json from the table below (run in /verif)."""
import json
C = {}
def c(pid, status, theorems, note=''):
    C[pid] = dict(property=pid, status=status, theorems=theorems.split(), note=note)
exec(open('tools/claims.py').read())
ids = [json.loads(l)['id'] for l in open('properties.jsonl')]
json.dump({'claims': [C[i] for i in ids if i in C]}, open('MANIFEST.json', 'w'), indent=1)
print(len(C), 'of', len(ids), 'missing', [i for i in ids if i not in C])

# every name must be a theorem of the sources: vcheck does not notice two names run together
import glob, re
full = set()
for f in glob.glob('lean/Verif/**/*.lean', recursive=True):
    ns = []
    for l in open(f):
        if m := re.match(r'namespace (\S+)', l): ns.append(m.group(1))
        elif (m := re.match(r'end (\S+)', l)) and ns and ns[-1] == m.group(1): ns.pop()
        elif m := re.match(r'(?:@\[[^\]]*\] *)?(?:protected )?theorem (\S+)', l): full.add('.'.join(ns + [m.group(1)]))
bad = [(i, t) for i in C for t in C[i]['theorems'] if t not in full]
print('names which are not theorems:', bad)
