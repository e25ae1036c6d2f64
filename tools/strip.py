"""A copy of the project without the examples (and the modules Verif.Examples.*) in /tmp/strip/lean.

An example which no longer checks does not show that a theorem is strong enough, and it keeps the modules above it from being
rebuilt; mutate.py and automutate.py therefore work on this copy.
"""
import glob, os, re, shutil, subprocess
BASE = '/tmp/strip/lean'
TOP = re.compile(r'\S')


def strip(text):
    lines, out, i = text.split('\n'), [], 0
    while i < len(lines):
        if re.match(r'example\b', lines[i]):
            # its doc comment and modifiers
            while out and re.match(r'(omit .* in|open .* in|set_option .* in)$', out[-1]): out.pop()
            j = len(out) - 1
            while j >= 0 and out[j].strip() == '': j -= 1
            if j >= 0 and out[j].rstrip().endswith('-/'):
                k = j
                while k >= 0 and not out[k].startswith('/-'): k -= 1
                if k >= 0 and out[k].startswith('/--'): del out[k:]
            while out and re.match(r'(omit .* in|open .* in|set_option .* in)$', out[-1]): out.pop()
            i += 1
            while i < len(lines) and not TOP.match(lines[i]): i += 1
            continue
        out.append(lines[i])
        i += 1
    return '\n'.join(out)


def make():
    """Update the copy and build it."""
    os.makedirs(BASE, exist_ok=True)
    if not os.path.exists(BASE + '/lakefile.toml'):
        subprocess.run(['cp', '-a', '/verif/lean/.', BASE], check=True)
    sources = {os.path.relpath(p, '/verif/lean') for p in glob.glob('/verif/lean/Verif/**/*.lean', recursive=True)} | {'Verif.lean'}
    sources = {p for p in sources if not p.startswith('Verif/Examples/')}
    for p in glob.glob(BASE + '/Verif/**/*.lean', recursive=True):
        if os.path.relpath(p, BASE) not in sources: os.remove(p)
    for p in sorted(sources):
        s = strip(open('/verif/lean/' + p).read())
        if p == 'Verif.lean': s = re.sub(r'^import Verif\.Examples\..*\n', '', s, flags=re.M)
        q = BASE + '/' + p
        os.makedirs(os.path.dirname(q), exist_ok=True)
        if not os.path.exists(q) or open(q).read() != s: open(q, 'w').write(s)
    r = subprocess.run(['lake', 'build'], cwd=BASE, capture_output=True, text=True)
    if r.returncode != 0: raise SystemExit(r.stdout[-3000:])
    return BASE


if __name__ == '__main__': print(make())
