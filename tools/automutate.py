"""Random small edits of the model, to look for theorems which are too weak.

python3 tools/automutate.py SEED NUMBER [--exceptions] [Model names]     (run in /verif after `lake build`)

Definitions which were edited least often so far come first.  Edits after which the model file does not compile are
skipped and not counted as attempts.  The build is stopped after the first module whose proofs fail, so that `failed`
is not complete.  Every attempt is appended to seeded/LOG.jsonl as by tools/mutate.py.
"""
import glob, json, os, random, re, subprocess, sys, shutil, signal
sys.path.insert(0, os.path.dirname(os.path.abspath(__file__)))
import strip
seed, number, only = int(sys.argv[1]), int(sys.argv[2]), sys.argv[3:]
EXCEPTIONS = '--exceptions' in only      # also edits which change only the kind of an exception
only = [x for x in only if x != '--exceptions']
rnd = random.Random(seed)
SRC, WORK, LOG = '/tmp/amut/base', '/tmp/amut/lean', '/verif/seeded/LOG.jsonl'
for x in (SRC, WORK):
    if os.path.exists(x): shutil.rmtree(x)
os.makedirs('/tmp/amut', exist_ok=True)
subprocess.run(['cp', '-a', strip.make(), SRC], check=True)
subprocess.run(['cp', '-a', SRC, WORK], check=True)

HEAD = re.compile(r'^(?:@\[[^\]]*\]\s*)?(?:private |noncomputable |protected )*(?:def|abbrev) (\S+)')
STOP = re.compile(r'^(?:/-|@\[|theorem|lemma|def|abbrev|structure|inductive|instance|noncomputable|private|end|section|namespace|'
                  r'variable|open|deriving|example|mutual|omit|attribute)')
SWAPS = [(' + ', ' - '), (' - ', ' + '), (' * ', ' + '), (' < ', ' ≤ '), (' ≤ ', ' < '), (' == ', ' != '), (' != ', ' == '),
         (' = ', ' ≠ '), (' ≠ ', ' = '), ('&&', '||'), ('||', '&&'), (' ∧ ', ' ∨ '), (' ∨ ', ' ∧ '), ('.1', '.2'), ('.2', '.1'),
         ('true', 'false'), ('false', 'true'), ('.any', '.all'), ('.all', '.any'), ('.rows', '.cols'), ('.cols', '.rows'),
         ('.take', '.drop'), ('.drop', '.take'), ('.reverse', ''), ('.tail', ''), ('.dropLast', ''), ('.eraseDups', ''),
         ('.dedup', ''), ('.length', '.length.succ'), ('isSome', 'isNone'), ('isNone', 'isSome'), (' ∈ ', ' ∉ '), ('!', ''),
         ('none', 'some default'), ('.lt', '.gt'), (' / ', ' * '), ('-', ''), ('.tr', ''), ('.foldl', '.foldr')]
ERRS = 'assertion typeError valueError keyError indexError attributeError nameError unboundLocal zeroDivision stopIteration runtimeError'.split()
KEY = set('let do match with fun if then else by in have show return for from where'.split())


def definitions(path):
    lines = open(path).read().split('\n')
    i = 0
    while i < len(lines):
        m = HEAD.match(lines[i])
        if not m:
            i += 1; continue
        j = i + 1
        while j < len(lines) and not STOP.match(lines[j]): j += 1
        yield m.group(1), '\n'.join(lines[i:j])
        i = j


def body_start(t):
    c = [x for x in (t.find(' :='), t.find('\n  | ')) if x >= 0]
    return min(c) + 3 if c else len(t)


def edits(t):
    b = body_start(t)
    body = t[b:]
    out = []
    def put(i, old, new, what): out.append((t[:b + i] + new + t[b + i + len(old):], what))
    for old, new in SWAPS:
        for m in re.finditer(re.escape(old), body):
            if old[0].isalpha() and (body[m.start() - 1].isalnum() or body[m.end():m.end() + 1].isalnum()): continue
            put(m.start(), old, new, '`%s` becomes `%s`' % (old.strip(), new.strip()))
    for m in re.finditer(r'(?<![\w.₀-₉])([0-9])(?![\w.])', body):
        n = int(m.group(1))
        put(m.start(), m.group(1), str(n + 1), '%d becomes %d' % (n, n + 1))
        if n: put(m.start(), m.group(1), str(n - 1), '%d becomes %d' % (n, n - 1))
    for m in re.finditer(r'"([^"\n]*)"', body):
        put(m.start(), m.group(0), '"%s_"' % m.group(1), 'string %s misspelt' % m.group(0))
    for m in re.finditer(r'\.(%s)\b' % '|'.join(ERRS), body):
        if not EXCEPTIONS: break
        e = rnd.choice([x for x in ERRS if x != m.group(1)])
        put(m.start(1), m.group(1), e, 'raises %s instead of %s' % (e, m.group(1)))
    for m in re.finditer(r"\bif (?!let|h)", body): put(m.start(), 'if ', 'if ¬ ', 'condition negated')
    W = r"[A-Za-z_][\w']*"
    for m in re.finditer(r"(?<![\w.'])(%s)(?: )(?=(%s)(?![\w.']))" % (W, W), body):
        x, y = m.group(1), m.group(2)
        if x in KEY or y in KEY or x == y or x == 'decide' or len(x) > 12: continue
        put(m.start(), x + ' ' + y, y + ' ' + x, '`%s %s` becomes `%s %s`' % (x, y, y, x))
    for m in re.finditer(r"\((%s), (%s)\)" % (W, W), body):
        if m.group(1) != m.group(2): put(m.start(), m.group(0), '(%s, %s)' % (m.group(2), m.group(1)), 'pair %s swapped' % m.group(0))
    for m in re.finditer(r"([\w.']+) \+\+ ([\w.']+)", body):
        put(m.start(), m.group(0), m.group(2) + ' ++ ' + m.group(1), '`%s` the other way round' % m.group(0))
    for m in re.finditer(r"\n +pyAssert [^\n]*", body): put(m.start(), m.group(0), '', 'assertion dropped')
    for m in re.finditer(r"([\w.']+) \+\+ ([\w.']+)", body):
        put(m.start(), m.group(0), m.group(1), '`%s` becomes `%s`' % (m.group(0), m.group(1)))
    for m in re.finditer(r"\((%s) (%s)\)" % (W, W), body):
        if m.group(1) not in KEY: put(m.start(), m.group(0), m.group(2), '`%s` becomes `%s`' % (m.group(0), m.group(2)))
    # bodies of two neighbouring branches
    for m in re.finditer(r"(\n +\| [^\n]*? => )([^\n]+)(\n +\| [^\n]*? => )([^\n]+)", body):
        put(m.start(), m.group(0), m.group(1) + m.group(4) + m.group(3) + m.group(2), 'branches `%s` and `%s` swapped' %
            (m.group(1).strip()[2:-3], m.group(3).strip()[2:-3]))
    # one name for another
    names = set(re.findall(r"(?<![\w.'])([a-z][A-Za-z0-9_']{0,7})(?![\w'(])", t)) - KEY - set(ERRS)
    bound = [x for x in names if re.search(r"(?:\(|\{| )%s(?: [\w']+)* :(?!=)|let %s |fun [^=]*\b%s\b|\| [^=\n]*\b%s\b[^=\n]*=>|[(,] ?%s[,)]" %
             ((re.escape(x),) * 5), t)]
    some = []
    for m in re.finditer(r"(?<![\w.'])([a-z][A-Za-z0-9_']{0,7})(?![\w'])", body):
        x = m.group(1)
        if x not in bound: continue
        for y in bound:
            if y != x: some.append((m.start(), x, y))
    rnd.shuffle(some)
    for i, x, y in some[:max(6, len(out) // 3)]: put(i, x, y, '`%s` becomes `%s`' % (x, y))
    rnd.shuffle(out)
    return out


def enclosing(path, line):
    name = None
    for i, l in enumerate(open(path), 1):
        if i > line: break
        m = re.match(r'\s*(?:@\[[^\]]*\]\s*)?(?:private |noncomputable |protected )*(theorem|lemma|def|example|instance|abbrev)\s*(\S*)', l)
        if m: name = 'example' if m.group(1) == 'example' else m.group(2)
    return name


claims = json.load(open('/verif/MANIFEST.json'))['claims']
where = {}
for f in glob.glob('/verif/lean/Verif/Props/*.lean'):
    for x in re.findall(r'^(?:theorem|lemma) (\S+)', open(f).read(), re.M): where.setdefault(x, set()).add(os.path.basename(f)[:-5])


def claims_of(failed):
    mods = {x.split(':')[0] for x in failed}
    res = []
    for c in claims:
        for th in c['theorems']:
            if any('Props.' + w in mods for w in where.get(th.split('.')[-1], ())) and c['property'] not in res: res.append(c['property'])
    return ', '.join(res) or None


log = [json.loads(l) for l in open(LOG)]
count, seen = {}, set()
for e in log:
    f = os.path.basename(e['file'])[:-5]
    for d in re.split(r'[^\w.\']+', e['definition']): count[f, d] = count.get((f, d), 0) + 1
    seen.add((e['file'], e['definition'], e['edit']))
todo = []
for p in sorted(glob.glob(SRC + '/Verif/Model/*.lean')):
    n = os.path.basename(p)[:-5]
    if only and n not in only: continue
    for d, t in definitions(p): todo.append((count.get((n, d), 0), rnd.random(), n, d, t))
todo.sort()
made = 0
for (_, _, n, d, t) in todo:
    if made >= number: break
    p = WORK + '/Verif/Model/' + n + '.lean'
    src = open(SRC + '/Verif/Model/' + n + '.lean').read()
    chosen = None
    for new, what in edits(t)[:12]:
        if ('Verif/Model/' + n + '.lean', d, 'random: ' + what) in seen or src.count(t) != 1: continue
        open(p, 'w').write(src.replace(t, new))
        r = subprocess.run(['lake', 'env', 'lean', 'Verif/Model/' + n + '.lean'], cwd=WORK, capture_output=True, text=True)
        if r.returncode == 0:
            chosen = (new, what); break
    if not chosen:
        open(p, 'w').write(src)
        print('no edit of', n, d, flush=True); continue
    made += 1
    new, what = chosen
    proc = subprocess.Popen(['lake', 'build'], cwd=WORK, stdout=subprocess.PIPE, stderr=subprocess.STDOUT, text=True,
                            start_new_session=True)
    failed, out, stopped, bad = [], '', False, None
    for line in proc.stdout:
        out += line
        m = re.match(r'error: (Verif/[A-Za-z0-9/]+\.lean):(\d+):', line)
        if m:
            x = m.group(1)[6:-5].replace('/', '.') + ': ' + str(enclosing(WORK + '/' + m.group(1), int(m.group(2))))
            if x not in failed: failed.append(x)
        if failed and re.match(r'(error: Lean exited|[✔✖⚠ℹ] \[)', line) and not line.startswith('✖ [0'):
            if line.startswith('error: Lean exited') :
                stopped = True; break
    if stopped:
        os.killpg(proc.pid, signal.SIGKILL)
    proc.wait()
    if any(x.startswith('Model.') for x in failed): outcome = 'not a test: the edited model does not compile'
    elif any(x.startswith('Props.') for x in failed): outcome = 'the proof of a property theorem no longer checks'
    elif failed: outcome = 'proofs of helper lemmas no longer check; the properties above them were not rechecked'
    elif proc.returncode == 0: outcome = 'SURVIVED'
    else: outcome = 'build failed without a located error: ' + out[-300:]
    if stopped: outcome += ' (build stopped at the first failing module)'
    # the changed line only
    a, b = t.split('\n'), new.split('\n')
    k = next((i for i in range(min(len(a), len(b))) if a[i] != b[i]), 0)
    rec = dict(file='Verif/Model/' + n + '.lean', definition=d, edit='random: ' + what, old=a[k].strip(), new=b[k].strip(),
               claim=claims_of(failed), outcome=outcome, failed=failed, failed_modules=[], refuted=None, tightened=[])
    open(LOG, 'a').write(json.dumps(rec, ensure_ascii=False) + '\n')
    print(outcome[:28], '|', n, d, '|', what, '|', b[k].strip()[:110], '|', failed[:3], flush=True)
    subprocess.run(['rm', '-rf', WORK + '/Verif', WORK + '/.lake/build'], check=True)
    subprocess.run(['cp', '-a', SRC + '/Verif', WORK + '/Verif'], check=True)
    subprocess.run(['cp', '-a', SRC + '/.lake/build', WORK + '/.lake/build'], check=True)
