"""Seeded bugs: edit the model in a scratch copy, rebuild, see which theorems fail.

Usage: mutate.py MUTANTS.py SCRATCH [name ...]

Proofs that fail are replaced by `sorry` in the scratch copy and the build goes on, so that in the end every theorem
of MANIFEST.json that rests on a failed proof is found by its dependency on `sorryAx`.

With MUT_QUICK=1 only the modules of the expected theorems are built, and the run stops as soon as a theorem of each
expected property rests on a failed proof; the dependencies are those of the right program (tools/Deps.lean.txt).
"""
import json, os, re, subprocess, sys, time, shutil

HERE = os.path.dirname(os.path.dirname(os.path.abspath(__file__)))
DECL = re.compile(r'^(?:@\[[^\]]*\]\s*)?(?:private |protected |noncomputable )*(theorem|lemma|example|def|instance|abbrev|structure|inductive)\b\s*([^\s:({\[]*)')
TOP = re.compile(r'^(theorem|lemma|example|def|instance|abbrev|structure|inductive|namespace|end|open|/--|/-!|set_option|@\[|private|section|variable|import)\b|^/-')


def sig_end(text):
    """Index of the `:=` (or first `|` line) that ends the signature."""
    d = 0
    i = 0
    while i < len(text):
        c = text[i]
        m = re.match(r'"(?:\\.|[^"\\])*"|\'(?:\\.|[^\\])\'', text[i:], re.S)
        if m:
            i += m.end()
            continue
        if c in '([{⟨':
            d += 1
        elif c in ')]}⟩':
            d -= 1
        elif d == 0 and text.startswith(':=', i) and not re.search(r'\blet [^\n]*$', text[:i]):
            return i
        elif d == 0 and text.startswith('\n  | ', i):
            return i
        elif d == 0 and text.startswith('\n| ', i):
            return i
        elif d == 0 and re.match(r'\bwhere\b', text[i:]) and text[i - 1] in ' \n':
            return i
        i += 1
    return None


def blocks(lines):
    """Start and end line numbers (0 based) of declarations."""
    out = []
    n = len(lines)
    i = 0
    while i < n:
        m = DECL.match(lines[i])
        if m:
            j = i + 1
            while j < n and not TOP.match(lines[j]):
                j += 1
            out.append((i, j, m.group(1), m.group(2)))
            i = j
        else:
            i += 1
    return out


def copy(a, b):
    shutil.rmtree(b, ignore_errors=True)
    subprocess.run(['cp', '-a', a, b], check=True)


def build(scratch, targets=('Verif',)):
    p = subprocess.run(['lake', 'build', *targets], cwd=scratch, capture_output=True, text=True, timeout=4000)
    out = p.stdout + p.stderr
    errs = re.findall(r'^error: (Verif/[\w/]+\.lean):(\d+):\d+: (.*)$', out, re.M)
    return p.returncode, errs, out


def manifest_names():
    man = json.load(open(os.path.join(HERE, 'MANIFEST.json')))
    names = []
    for c in man['claims']:
        for t in c['theorems']:
            if t not in names:
                names.append(t)
    return names


def dependencies(base):
    """For each theorem of the manifest its module and the constants on which it depends."""
    with open(base + '/Deps.lean', 'w') as g:
        g.write(open(HERE + '/tools/Deps.lean.txt').read())
        g.write("#eval main' [%s]\n" % ', '.join('`' + n for n in manifest_names()))
    p = subprocess.run(['lake', 'env', 'lean', 'Deps.lean'], cwd=base, capture_output=True, text=True)
    out = {}
    for l in p.stdout.split('\n'):
        w = l.split(' ')
        if len(w) > 2:
            out[w[0].replace('MdToc.Props.', '')] = (w[1], w[2:])
    return out


def resting(deps, failed):
    """The theorems that depend on one of the failed proofs, given as (module, name)."""
    return [t for t, (_, cs) in deps.items() if any(c.startswith(m + '.') and (c.endswith('.' + n) or '.' + n + '.' in c) for c in cs for m, n in failed)]


def run(mut, base, scratch, deps=None):
    copy(base, scratch)
    for f, old, new in mut['edits']:
        path = os.path.join(scratch, 'Verif', f)
        s = open(path).read()
        assert s.count(old) >= 1, (mut['name'], f, old)
        s = s.replace(old, new, 1)
        open(path, 'w').write(s)
    failed = []
    t0 = time.time()
    targets, gone = ['Verif'], []
    if deps:
        targets = sorted({m for t, (m, _) in deps.items() if t.split('_')[0] in mut['expect']})
    for rnd in range(90):
        rc, errs, out = build(scratch, targets)
        if rc == 0:
            break
        if not errs:
            return {'problem': out[-1500:]}
        progress = False
        for f in sorted({e[0] for e in errs}):
            path = os.path.join(scratch, f)
            lines = open(path).read().split('\n')
            bl = blocks(lines)
            hit = set()
            for e in errs:
                if e[0] != f:
                    continue
                ln = int(e[1]) - 1
                c = [k for k, b in enumerate(bl) if b[0] <= ln < b[1]]
                if not c:
                    # an attribute or comment line before: take the next one
                    c = [k for k, b in enumerate(bl) if b[0] > ln][:1]
                if c:
                    hit.add(c[0])
            for k in sorted(hit, reverse=True):
                a, b, kind, name = bl[k]
                text = '\n'.join(lines[a:b])
                if 'Spec' not in f and ('Lemmas' not in f and 'Props' not in f):
                    return {'problem': 'model does not compile: %s %s: %s' % (f, name, [e for e in errs if e[0] == f][:2])}
                if kind in ('theorem', 'lemma'):
                    se = sig_end(text)
                    new = text[:se].rstrip() + ' := by\n  sorry\n'
                    if new.strip() == text.strip():
                        return {'problem': 'statement of %s does not elaborate: %s' % (name, [e for e in errs if e[0] == f][:2])}
                    failed.append(os.path.basename(f)[:-5] + ':' + name)
                    gone.append((f[:-5].replace('/', '.'), name))
                elif kind == 'example':
                    failed.append(os.path.basename(f)[:-5] + ':example')
                    new = ''
                else:
                    return {'problem': 'definition %s %s fails: %s' % (f, name, [e for e in errs if e[0] == f][:2])}
                # drop the doc comment of a removed example
                if new == '':
                    while a > 0 and not lines[a - 1].strip() == '' and not DECL.match(lines[a - 1]):
                        a -= 1
                lines[a:b] = new.split('\n') + ['']
                progress = True
            open(path, 'w').write('\n'.join(lines))
        if not progress:
            return {'problem': 'no progress: ' + str(errs[:3])}
        if deps:
            bad = resting(deps, gone)
            if all(any(t.startswith(c + '_') for t in bad) for c in mut['expect']):
                return {'failed_proofs': failed, 'theorems_failed': bad, 'seconds': int(time.time() - t0)}
    else:
        return {'problem': 'too many rounds', 'last_errors': errs[:4], 'failed_so_far': failed[-30:]}
    if deps:
        return {'failed_proofs': failed, 'theorems_failed': resting(deps, gone), 'seconds': int(time.time() - t0)}
    names = manifest_names()
    audit = os.path.join(scratch, 'Audit.lean')
    with open(audit, 'w') as g:
        g.write('import Verif\n' + ''.join('#print axioms %s\n' % t for t in names))
    p = subprocess.run(['lake', 'env', 'lean', '-DmaxErrors=100000', 'Audit.lean'], cwd=scratch, capture_output=True, text=True)
    out = p.stdout.replace('\n  ', ' ')
    bad = [m.group(1).replace('MdToc.Props.', '') for m in re.finditer(r"'([^']+)' depends on axioms: \[([^\]]*)\]", out, re.S) if 'sorryAx' in m.group(2)]
    return {'failed_proofs': failed, 'theorems_failed': bad, 'seconds': int(time.time() - t0)}


def main():
    mutfile, work = sys.argv[1:3]
    only = sys.argv[3:]
    ns = {}
    exec(open(mutfile).read(), ns)
    base = work + '/base'
    scratch = work + '/scratch'
    os.makedirs(work, exist_ok=True)
    copy(HERE + '/lean', base)
    # MUT_PRIME=<work directory of an earlier run>: take the compiled files of its base, lake rebuilds what differs
    if os.environ.get('MUT_PRIME'):
        copy(os.environ['MUT_PRIME'] + '/base/.lake', base + '/.lake')
    # the conformance tests would fail as well; only theorems are of interest
    v = open(base + '/Verif.lean').read()
    v = '\n'.join(l for l in v.split('\n') if 'Conformance' not in l)
    # MUT_PROPS="Html Inline": only these modules of theorems are built
    if os.environ.get('MUT_PROPS'):
        keep = os.environ['MUT_PROPS'].split()
        v = '\n'.join(l for l in v.split('\n') if 'Verif.Props.' not in l or l.split('.')[-1] in keep)
    open(base + '/Verif.lean', 'w').write(v)
    # `decide +kernel` on a false proposition uses a lot of memory for the error message
    shutil.copy(HERE + '/tools/KDecide.lean.txt', base + '/Verif/KDecide.lean')
    for sub in ('Lemmas', 'Props'):
        for f in os.listdir(base + '/Verif/' + sub):
            path = base + '/Verif/' + sub + '/' + f
            t = open(path).read()
            if 'decide +kernel' in t:
                open(path, 'w').write('import Verif.KDecide\n' + t.replace('decide +kernel', 'kdecide'))
    rc, errs, out = build(base)
    assert rc == 0, out[-2000:]
    deps = dependencies(base) if os.environ.get('MUT_QUICK') else None
    res = work + '/results.jsonl'
    done = set()
    if os.path.exists(res):
        done = {json.loads(l)['name'] for l in open(res)}
    for m in ns['MUTANTS']:
        if only and m['name'] not in only:
            continue
        if m['name'] in done and not only:
            continue
        try:
            r = run(m, base, scratch, deps)
        except Exception as e:
            r = {'problem': repr(e)[:500]}
        r = dict(name=m['name'], definition=m['definition'], edit=m['edit'], claim=m['claim'], expect=m.get('expect', []), **r)
        with open(res, 'a') as g:
            g.write(json.dumps(r, ensure_ascii=False) + '\n')
        miss = [c for c in r['expect'] if not any(t.startswith(c + '_') for t in r.get('theorems_failed', []))]
        print(m['name'], r.get('seconds'), 'MISSED ' + str(miss) if miss else 'ok', r.get('problem', ''), len(r.get('theorems_failed', [])), flush=True)


if __name__ == "__main__":
    main()
