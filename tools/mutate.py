"""Test the theorems against wrong programs.

python3 tools/mutate.py BATCH.py     (run in /verif after `lake build`)

The examples are left out (see strip.py).

BATCH.py defines a list M of tuples (file, definition, old, new, claim, edit).  Every edit is made in a scratch
copy of the project, which is rebuilt; the result of every attempt is appended to seeded/LOG.jsonl.
A proof which no longer checks does not show that the statement is false: harmless edits break proofs too.  The field
`refuted` is filled in only when the negation of the statement (or of an instance of it) was proved of the edited
model in Lean; null means that this was not tried.
An attempt already in the log is repeated only with --again (after a theorem was tightened).
"""
import json, os, re, shutil, subprocess, sys
sys.path.insert(0, os.path.dirname(os.path.abspath(__file__)))
import strip
ns = {}
exec(open(sys.argv[1]).read(), ns)
SRC, WORK = '/tmp/mut/base', '/tmp/mut/lean'
done = set()
log = '/verif/seeded/LOG.jsonl'
if os.path.exists(log):
    for l in open(log):
        d = json.loads(l)
        done.add((d['file'], d['definition'], d['edit']))
for x in (SRC, WORK):
    if os.path.exists(x): shutil.rmtree(x)
os.makedirs('/tmp/mut', exist_ok=True)
# a snapshot, so that work on the sources does not leak into the attempts
subprocess.run(['cp', '-a', strip.make(), SRC], check=True)
subprocess.run(['cp', '-a', SRC, WORK], check=True)


def restore():
    subprocess.run(['rm', '-rf', WORK + '/Verif', WORK + '/.lake/build'], check=True)
    subprocess.run(['cp', '-a', SRC + '/Verif', WORK + '/Verif'], check=True)
    subprocess.run(['cp', '-a', SRC + '/.lake/build', WORK + '/.lake/build'], check=True)


def enclosing(path, line):
    name = None
    for i, l in enumerate(open(path), 1):
        if i > line: break
        m = re.match(r'\s*(?:@\[[^\]]*\]\s*)?(?:private |noncomputable |protected )*(theorem|lemma|def|example|instance|abbrev)\s*(\S*)', l)
        if m: name = 'example' if m.group(1) == 'example' else m.group(2)
    return name


for (f, d, old, new, claim, edit) in ns['M']:
    if '--again' not in sys.argv and ('Verif/Model/' + f, d, edit) in done: continue
    p = WORK + '/Verif/Model/' + f
    s = open(p).read()
    if s.count(old) != 1:
        print('BAD', f, d, s.count(old), repr(old)); continue
    open(p, 'w').write(s.replace(old, new))
    r = subprocess.run(['lake', 'build'], cwd=WORK, capture_output=True, text=True)
    out = r.stdout + r.stderr
    failed = []
    for m in re.finditer(r'error: (Verif/[A-Za-z0-9/]+\.lean):(\d+):', out):
        n = (m.group(1)[6:-5].replace('/', '.') + ': ' + str(enclosing(WORK + '/' + m.group(1), int(m.group(2)))))
        if n not in failed: failed.append(n)
    blocked = sorted({m.group(1) for m in re.finditer(r'^- (Verif[A-Za-z0-9.]*)$', out, re.M)})
    if any(x.startswith('Model.') for x in failed): outcome = 'not a test: the edited model does not compile'
    elif any(x.startswith('Props.') for x in failed): outcome = 'the proof of a property theorem no longer checks'
    elif failed: outcome = 'proofs of helper lemmas no longer check; the properties above them were not rechecked'
    elif r.returncode == 0: outcome = 'SURVIVED'
    else: outcome = 'build failed without a located error: ' + out[-300:]
    rec = dict(file='Verif/Model/' + f, definition=d, edit=edit, old=old, new=new, claim=claim,
               outcome=outcome, failed=failed, failed_modules=blocked, refuted=None, tightened=[])
    open('/tmp/mut/last.txt', 'w').write(out)
    print(outcome[:28], '|', f, d, '|', edit, '|', failed[:4], flush=True)
    # every attempt is logged, survivors and edits that do not compile included
    open(log, 'a').write(json.dumps(rec, ensure_ascii=False) + '\n')
    restore()
