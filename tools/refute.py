"""Refute property theorems on wrong programs.

python3 tools/refute.py BATCH.py [--again]     (run in /verif after `lake build`)

BATCH.py defines a list R of tuples (file, definition, edit, theorem, imports, code) where the first three name an attempt in
seeded/LOG.jsonl and `theorem` is the full name of a property theorem.  The statement of the theorem is copied from its
source into a definition `Claim` (the variables of its section become arguments); `code` proves `theorem refuted : ¬ Claim ...`.
Only models, specifications and the listed imports are used, on the edited model.  If this checks, the field `refuted` of
the attempt lists the theorem.  As a control the same code must fail on the unedited model.
"""
import glob, json, os, re, shutil, subprocess, sys
ROOT, WORK = '/verif', '/tmp/refute/lean'
LOG = ROOT + '/seeded/LOG.jsonl'


def source(name):
    """File, header (open, variable lines in force) and (binders, conclusion) of a theorem."""
    ns, short = name.rsplit('.', 1)
    for p in sorted(glob.glob(ROOT + '/lean/Verif/Props/*.lean')):
        s = open(p).read()
        if not re.search(r'^namespace ' + re.escape(ns) + r'$', s, re.M): continue
        m = re.search(r'^(?:private )?theorem ' + re.escape(short) + r'(?![\w\'.])', s, re.M)
        if not m: continue
        rest = s[m.end():]
        depth, colon, i = 0, None, 0
        while True:
            ch = rest[i]
            if ch in '([{⟨': depth += 1
            elif ch in ')]}⟩': depth -= 1
            elif depth == 0 and rest.startswith(':=', i): end = i; break
            elif depth == 0 and rest.startswith('\n  | ', i): end = i; break
            elif depth == 0 and ch == ':' and colon is None: colon = i
            i += 1
        head = '\n'.join(re.findall(r'^(?:open|variable)[^\n]*(?:\n  [^\n]*)*', s[:m.start()], re.M))
        return ns, head, rest[:colon].strip(), rest[colon + 1:end].strip()
    raise SystemExit('no theorem ' + name)


def run(imports, ns, head, binders, concl, code):
    text = ''.join('import %s\n' % i for i in imports) + '\nnamespace %s\n%s\n\n' % (ns, head)
    text += 'def Claim : Prop := %s\n  %s\n\n%s\n\nend %s\n' % ('∀ %s,' % binders if binders else '', concl, code, ns)
    open(WORK + '/Verif/Refuted.lean', 'w').write(text)
    r = subprocess.run(['lake', 'build', 'Verif.Refuted'], cwd=WORK, capture_output=True, text=True)
    return r.returncode == 0 and 'sorry' not in r.stdout, '\n'.join(l for l in (r.stdout + r.stderr).split('\n') if not l.startswith('trace'))


if __name__ == '__main__':
    env = {}
    exec(open(sys.argv[1]).read(), env)
    if os.path.exists('/tmp/refute'): shutil.rmtree('/tmp/refute')
    os.makedirs('/tmp/refute')
    subprocess.run(['cp', '-a', ROOT + '/lean', WORK], check=True)
    for (f, d, edit, theorem, imports, code) in env['R']:
        log = [json.loads(l) for l in open(LOG)]
        hits = [x for x in log if (x['file'], x['definition'], x['edit']) == ('Verif/Model/' + f, d, edit)]
        if not hits: print('NOT LOGGED', f, d, edit); continue
        x = hits[-1]
        if theorem in (x['refuted'] or []) and '--again' not in sys.argv: continue
        parts = source(theorem)
        p = WORK + '/Verif/Model/' + f
        s = open(p).read()
        if s.count(x['old']) != 1: print('BAD', f, d, edit); continue
        ok, out = run(imports, *parts, code)
        if ok: print('CONTROL: also refuted on the real model', f, d, theorem); continue
        open(p, 'w').write(s.replace(x['old'], x['new']))
        ok, out = run(imports, *parts, code)
        open(p, 'w').write(s)
        print('refuted' if ok else 'NOT REFUTED', '|', f, d, '|', edit, '|', theorem)
        if not ok: print(out[-2500:]); continue
        log = [json.loads(l) for l in open(LOG)]
        for y in log:
            if (y['file'], y['definition'], y['edit']) == ('Verif/Model/' + f, d, edit):
                y['refuted'] = sorted(set(y['refuted'] or []) | {theorem})
        open(LOG, 'w').write(''.join(json.dumps(y, ensure_ascii=False) + '\n' for y in log))
