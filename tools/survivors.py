"""Systematic seeded bugs: small edits of every definition of the model, one at a time.

Usage: survivors.py BASE SCRATCH RESULTS.jsonl [file ...]

BASE is a built copy of lean/ without the conformance tests.  The build of an edited copy is stopped at the first error in a proof;
edits after which everything still builds (survivors) are to be inspected by hand.  The modules in FIRST are built before the others.
"""
import json, os, random, re, shutil, signal, subprocess, sys, time

FILES = ['Generic', 'Fence', 'Atx', 'Anchor', 'Toc', 'Write', 'Cli', 'Args', 'Fpyutils', 'Cmark/Subject', 'Cmark/Emphasis', 'Cmark/Links',
         'Cmark/Inlines', 'Cmark/Tree', 'Constants', 'Py', 'Regex']
OPS = [(r' ≤ ', [' < ']), (r' < ', [' ≤ ']), (r' ≥ ', [' > ']), (r' > ', [' ≥ ']), (r' == ', [' != ']), (r' != ', [' == ']), (r' = ', [' ≠ ']), (r' ≠ ', [' = ']),
       (r' && ', [' || ']), (r' \|\| ', [' && ']), (r' ∧ ', [' ∨ ']), (r' ∨ ', [' ∧ ']), (r' \+ 1\b', ['', ' + 2']), (r' - 1\b', ['', ' - 2']), (r'\btrue\b', ['false']), (r'\bfalse\b', ['true']),
       (r'!(?=[a-z(])', ['']), (r'(?<![\w.\'\\])(\d+)(?![\w.\'])', ['+']), (r"'(?:\\.|\\x..|[^'\\])'", ["'q'"]), (r'\+\+', ['swap']), (r'\bsome \w+\b', ['none'])]


def sites(text):
    out = []
    pos = 0
    comment = False
    for line in text.split('\n'):
        start = pos
        pos += len(line) + 1
        if '/-' in line:
            comment = True
        if comment:
            if '-/' in line:
                comment = False
            continue
        if re.match(r'^(import|open|namespace|end|set_option|termination_by|decreasing_by|theorem|deriving)\b', line.strip()):
            continue
        body = line
        for rx, reps in OPS:
            for m in re.finditer(rx, body):
                for r in reps:
                    if rx == r' = ' and re.search(r'\b(let|have)\b[^=]*$', body[:m.start()]):
                        continue
                    if r == '+':
                        r = str(int(m.group(1)) + 1)
                    if r == 'swap':
                        continue
                    out.append((start + m.start(), start + m.end(), r))
        m = re.search(r'\bif (.*?) then\b', body)
        if m and ':' not in m.group(1):
            out.append((start + m.start(1), start + m.end(1), '¬ (' + m.group(1) + ')'))
    return out


def run(base, scratch, f, site, text):
    shutil.rmtree(scratch, ignore_errors=True)
    subprocess.run(['cp', '-a', base, scratch], check=True)
    a, b, r = site
    open(os.path.join(scratch, 'Verif', f + '.lean'), 'w').write(text[:a] + r + text[b:])
    t0 = time.time()
    res = None
    for targets in [os.environ['FIRST'].split(), ['Verif']] if 'FIRST' in os.environ else [['Verif']]:
        p = subprocess.Popen(['nice', '-n', os.environ.get('NICE', '10'), 'lake', 'build', *targets], cwd=scratch, stdout=subprocess.PIPE, stderr=subprocess.STDOUT, text=True, start_new_session=True)
        for l in p.stdout:
            m = re.match(r'error: Verif/([\w/]+)\.lean:(\d+):\d+: (.*)', l)
            if m:
                res = [m.group(1), int(m.group(2)), m.group(3)[:100]]
                break
            if l.startswith('error:') and res is None and 'build failed' not in l:
                res = ['?', 0, l[:200]]
                break
        if res:
            os.killpg(p.pid, signal.SIGKILL)
        p.wait()
        if res or p.returncode:
            break
    return res, p.returncode, time.time() - t0


def main():
    base, scratch, results, *only = sys.argv[1:]
    done = set()
    if os.path.exists(results):
        for l in open(results):
            x = json.loads(l)
            done.add((x['file'], x['at'], x['new']))
    for f in only or FILES:
        text = open(os.path.join(base, 'Verif', f + '.lean')).read()
        lines = text.split('\n')
        rng = random.Random(f)
        for s in sites(text):
            if rng.random() > float(os.environ.get('RATE', '1')):
                continue
            ln = text.count('\n', 0, s[0])
            key = (f, s[0], s[2])
            if key in done:
                continue
            res, rc, t = run(base, scratch, f, s, text)
            kind = 'survived' if res is None and rc == 0 else 'invalid' if res is None or res[0] == f or res[0] == '?' else 'killed'
            with open(results, 'a') as o:
                o.write(json.dumps({'file': f, 'line': ln + 1, 'at': s[0], 'old': text[s[0]:s[1]], 'new': s[2], 'kind': kind, 'by': res, 'time': round(t), 'source': lines[ln].strip()}, ensure_ascii=False) + '\n')


def count():
    base = sys.argv[2]
    n = 0
    for f in FILES:
        k = len(sites(open(os.path.join(base, 'Verif', f + '.lean')).read()))
        print(f, k)
        n += k
    print(n)


if __name__ == '__main__':
    count() if sys.argv[1] == '--count' else main()
