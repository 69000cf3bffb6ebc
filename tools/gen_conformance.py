"""Translate the assertions of /repo/md_toc/tests/tests.py into Lean (as text; nothing of /repo is run).

Usage: gen_conformance.py OUTDIR
Each assertion on a modelled pure function becomes one `example` checked by the kernel.
"""
import ast
import sys

SRC = '/repo/md_toc/tests/tests.py'
tree = ast.parse(open(SRC).read())
PARSERS = ['github', 'cmark', 'gitlab', 'commonmarker', 'goldmark', 'redcarpet']


class Skip(Exception):
    pass


class Md:
    """Stand-in for `md_parser[...]` chains."""

    def __init__(self, path=()):
        self.path = path

    def val(self):
        p = self.path
        if 'max_levels' in p or 'max levels' in p:
            return 6
        if 'max_chars_label' in p:
            return 999
        if 'max_marker_number' in p:
            return 999999999
        if 'min_marker_characters' in p:
            return 3
        if 'closing_markers' in p:
            return ['.'] if p[0] == 'redcarpet' else ['.', ')']
        if 'bullet_markers' in p:
            return ['-', '+', '*']
        if 'default_closing_marker' in p:
            return '.'
        if 'default_marker' in p:
            return '-'
        if 'min_marker_number' in p:
            return 0
        raise Skip(f'md_parser{p}')


def ev(n, env):
    if isinstance(n, ast.Constant):
        return n.value
    if isinstance(n, ast.Name):
        if n.id in env:
            return env[n.id]
        raise Skip(n.id)
    if isinstance(n, ast.BinOp):
        a, b = ev(n.left, env), ev(n.right, env)
        if isinstance(a, Md):
            a = a.val()
        if isinstance(b, Md):
            b = b.val()
        if isinstance(n.op, ast.Add):
            return a + b
        if isinstance(n.op, ast.Mult):
            return a * b
        if isinstance(n.op, ast.Sub):
            return a - b
        raise Skip('op')
    if isinstance(n, ast.UnaryOp) and isinstance(n.op, ast.USub):
        return -ev(n.operand, env)
    if isinstance(n, ast.Tuple):
        return tuple(ev(e, env) for e in n.elts)
    if isinstance(n, ast.List):
        return [ev(e, env) for e in n.elts]
    if isinstance(n, ast.Dict):
        return {ev(k, env): ev(v, env) for k, v in zip(n.keys, n.values)}
    if isinstance(n, ast.Subscript):
        v = ev(n.value, env)
        k = ev(n.slice, env)
        if isinstance(v, Md):
            return Md(v.path + (k,))
        return v[k]
    if isinstance(n, ast.Call) and isinstance(n.func, ast.Name):
        if n.func.id == 'range':
            return range(*[num(ev(a, env)) for a in n.args])
        if n.func.id == 'dict' and not n.args:
            return {}
        if n.func.id == 'list' and not n.args:
            return []
    raise Skip(ast.dump(n)[:80])


def num(v):
    return v.val() if isinstance(v, Md) else v


cases = []  # (function, lineno, args, kwargs, kind, expected)


def callname(c):
    if isinstance(c, ast.Call) and isinstance(c.func, ast.Attribute) and isinstance(
            c.func.value, ast.Name) and c.func.value.id in ('api', 'generic'):
        return c.func.attr
    return None


def getcall(c, env):
    args = [num(ev(a, env)) for a in c.args]
    kw = {k.arg: num(ev(k.value, env)) for k in c.keywords}
    return args, kw


def run(stmts, env, fn):
    for s in stmts:
        try:
            if isinstance(s, ast.Assign):
                v = num(ev(s.value, env))
                for t in s.targets:
                    if isinstance(t, ast.Name):
                        env[t.id] = v
            elif isinstance(s, ast.For) and isinstance(s.target, ast.Name):
                for x in ev(s.iter, env):
                    e = dict(env)
                    e[s.target.id] = x
                    run(s.body, e, fn)
            elif isinstance(s, ast.With):
                it = s.items[0].context_expr
                if isinstance(it, ast.Call) and getattr(it.func, 'id', '') == 'open' and len(it.args) == 2:
                    env['$file'] = ev(s.body[0].value.args[0], env)
                    env['$write'] = None
                    continue
                if isinstance(it, ast.Call) and getattr(it.func, 'attr', '') == 'assertRaises':
                    a = it.args[0]
                    exc = a.attr if isinstance(a, ast.Attribute) else a.id
                    for b in s.body:
                        if isinstance(b, ast.Expr) and callname(b.value):
                            ar, kw = getcall(b.value, env)
                            if callname(b.value) == '_extract_lines':
                                ar = [env['$file']] + ar
                            cases.append((callname(b.value), b.lineno, ar, kw, 'raises', exc))
            elif isinstance(s, ast.Expr) and isinstance(s.value, ast.Call):
                c = s.value
                m = getattr(c.func, 'attr', '')
                if m == 'write_string_on_file_between_markers':
                    env['$write'] = getcall(c, env)
                if m == 'assertEqual' and isinstance(c.args[0], ast.Name) and c.args[0].id == 'lines' and env.get('$write'):
                    ar, kw = env['$write']
                    cases.append(('$write', s.lineno, [env['$file']] + ar, kw, 'eq', ev(c.args[1], env)))
                    continue
                if m == 'assertEqual' and callname(c.args[0]):
                    ar, kw = getcall(c.args[0], env)
                    if callname(c.args[0]) in ('_extract_lines', '_get_existing_toc'):
                        ar = [env['$file']] + ar
                    cases.append((callname(c.args[0]), s.lineno, ar, kw, 'eq', num(ev(c.args[1], env))))
                elif m in ('assertTrue', 'assertFalse') and callname(c.args[0]):
                    ar, kw = getcall(c.args[0], env)
                    cases.append((callname(c.args[0]), s.lineno, ar, kw, 'eq', m == 'assertTrue'))
                elif m == 'assertIsNone' and callname(c.args[0]):
                    ar, kw = getcall(c.args[0], env)
                    cases.append((callname(c.args[0]), s.lineno, ar, kw, 'eq', None))
        except Skip as e:
            print('skip', fn, s.lineno, e, file=sys.stderr)


top = {'md_parser': Md()}
for node in tree.body:
    if isinstance(node, ast.Assign):
        run([node], top, 'top')
for node in tree.body:
    if isinstance(node, ast.ClassDef):
        for f in node.body:
            if isinstance(f, ast.FunctionDef):
                run(f.body, dict(top), f.name)


def lchar(c):
    o = ord(c)
    if c == '\\':
        return '\\\\'
    if c == '"':
        return '\\"'
    if c == '\n':
        return '\\n'
    if c == '\r':
        return '\\r'
    if c == '\t':
        return '\\t'
    if 32 <= o < 127:
        return c
    if o < 256:
        return '\\x%02x' % o
    return '\\u%04x' % o if o < 65536 else c


def lstr(s):
    if len(s) > 100 and len(set(s)) == 1:
        return f"(List.replicate {len(s)} '{lchar(s[0])}')"
    return '"' + ''.join(map(lchar, s)) + '".toList'


def lbool(b):
    return 'true' if b else 'false'


def lopt(f, v):
    return 'none' if v is None else '(some ' + f(v) + ')'


def pr(p):
    if p not in PARSERS:
        raise Skip('parser ' + repr(p))
    return '.' + p


def bind(names, defaults, args, kw):
    d = dict(defaults)
    d.update(zip(names, args))
    d.update(kw)
    return [d[n] for n in names]


def res(kind, exp, f):
    return ('.error .' + exp) if kind == 'raises' else '.ok ' + f(exp)


def latx(l):
    return '[' + ', '.join('⟨%s, %s, %s⟩' % (
        lopt(str, e['header_type']), lopt(lstr, e['header_text_trimmed']), lbool(e['visible'])) for e in l) + ']'


def emit(fn, ar, kw, kind, exp):
    if any(not isinstance(a, (str, int, bool, list, dict, range, type(None))) for a in ar):
        raise Skip('arg type')
    if fn == '$write':
        return 'writtenText %s %s %s %s = .ok %s' % (
            lstr(ar[0]), lstr(ar[2]), lstr(ar[3]), lstr(kw['newline_string']), lstr(exp))
    if fn == '_extract_lines':
        return 'extractLines (linesKeep %s) %d %d = %s' % (lstr(ar[0]), ar[2], ar[3], res(kind, exp, lstr))
    if fn == '_get_existing_toc':
        o, d, t, n, pos, fl = exp
        return 'getExistingToc asciiEnv (linesKeep %s) %s = .ok ⟨%s, [%s], %s, %d, [%s], %d⟩' % (
            lstr(ar[0]), lstr(ar[2]), lstr(o), ', '.join('(%d, %d)' % tuple(x) for x in d), lbool(t), n,
            ', '.join(str(pos[k]) for k in sorted(pos)), fl)
    if fn == '_replace_substring':
        if kind == 'raises' and exp == 'TypeError':
            raise Skip('types')
        return 'replaceSubstring %s %s %d %d = %s' % (lstr(ar[0]), lstr(ar[1]), ar[2], ar[3], res(kind, exp, lstr))
    if fn == '_string_empty':
        return 'stringEmpty asciiEnv %s = %s' % (lstr(ar[0]), lbool(exp))
    if fn == '_detect_toc_list':
        return 'detectTocList asciiEnv %s = %s' % (lstr(ar[0]), lbool(exp))
    if fn == '_read_line_interval':
        return 'readLineInterval %s %d %d = %s' % (lstr(ar[0]), ar[1], ar[2], lstr(exp))
    if fn == 'filter_indices_from_line':
        return 'filterIndices %s [%s] = %s' % (
            lstr(ar[0]), ', '.join('(%d, %d)' % (r.start, r.stop) for r in ar[1]), lstr(exp))
    if fn == 'remove_emphasis':
        l, p = bind(['line', 'parser'], {'parser': 'github'}, ar, kw)
        return 'removeEmphasis asciiEnv %s %s = %s' % (lstr(l), pr(p), res(kind, exp, lstr))
    if fn == 'remove_html_tags':
        l, p = bind(['line', 'parser'], {'parser': 'github'}, ar, kw)
        return 'removeHtmlTags asciiEnv %s %s = %s' % (lstr(l), pr(p), lstr(exp))
    if fn == 'anchor_link_punctuation_filter':
        l, p = bind(['line', 'parser'], {'parser': 'github'}, ar, kw)
        return 'punctuationFilter asciiEnv %s %s = %s' % (lstr(l), pr(p), lstr(exp))
    if fn == 'build_anchor_link':
        l, d, p = bind(['t', 'd', 'parser'], {'parser': 'github'}, ar, kw)
        return '(buildAnchorLink asciiEnv %s (fun _ => 0) %s).map Prod.fst = %s' % (lstr(l), pr(p), res(kind, exp, lstr))
    if fn == 'replace_and_split_newlines':
        return 'replaceAndSplitNewlines %s = [%s]' % (lstr(ar[0]), ', '.join(map(lstr, exp)))
    if fn == 'get_atx_heading':
        l, k, p, n = bind(['line', 'keep_header_levels', 'parser', 'no_links'],
                          {'keep_header_levels': 3, 'parser': 'github', 'no_links': False}, ar, kw)
        return 'getAtxHeading %s %d %s %s = %s' % (lstr(l), k, pr(p), lbool(n), res(kind, exp, latx))
    if fn == 'is_opening_code_fence':
        l, p = bind(['line', 'parser'], {'parser': 'github'}, ar, kw)
        return 'isOpeningCodeFence %s %s = %s' % (lstr(l), pr(p), lopt(lstr, exp))
    if fn == 'is_closing_code_fence':
        l, f, d, p = bind(['line', 'fence', 'is_document_end', 'parser'],
                          {'is_document_end': False, 'parser': 'github'}, ar, kw)
        return 'isClosingCodeFence %s %s %s %s = %s' % (lstr(l), lstr(f), lbool(d), pr(p), lbool(exp))
    if fn == 'build_toc_line_without_indentation':
        h, o, n, i, p, m = bind(['header', 'ordered', 'no_links', 'index', 'parser', 'list_marker'],
                                {'ordered': False, 'no_links': False, 'index': 1, 'parser': 'github',
                                 'list_marker': '-'}, ar, kw)
        return 'buildTocLineNoIndent ⟨%d, %s, %s, true⟩ %s %s %d %s %s = %s' % (
            h['header_type'], lstr(h['text_original']), lstr(h['text_anchor_link']), lbool(o), lbool(n), i,
            pr(p), lstr(m), res(kind, exp, lstr))
    raise Skip('function ' + fn)


groups = {}
seen = set()
for fn, ln, ar, kw, kind, exp in cases:
    try:
        t = emit(fn, ar, kw, kind, exp)
    except Skip as e:
        print('skip', fn, ln, e, file=sys.stderr)
        continue
    if t in seen or len(t) > 900 or 'replicate 9' in t or 'replicate 1000' in t:
        # labels of 1000 characters take minutes in the kernel
        continue
    seen.add(t)
    groups.setdefault(fn, []).append((ln, t))

names = {
    '$write': 'Write', '_extract_lines': 'Write', '_get_existing_toc': 'Write',
    '_replace_substring': 'Generic', '_string_empty': 'Generic', '_detect_toc_list': 'Generic',
    '_read_line_interval': 'Generic', 'filter_indices_from_line': 'Emphasis', 'remove_emphasis': 'Emphasis',
    'remove_html_tags': 'Html', 'anchor_link_punctuation_filter': 'Generic', 'build_anchor_link': 'Generic',
    'replace_and_split_newlines': 'Generic', 'get_atx_heading': 'Atx', 'is_opening_code_fence': 'Fence',
    'is_closing_code_fence': 'Fence', 'build_toc_line_without_indentation': 'Generic'}
mode = sys.argv[2] if len(sys.argv) > 2 else 'lean'
files = {}
for fn, l in groups.items():
    print(fn, len(l), file=sys.stderr)
    files.setdefault(names[fn], []).extend((fn, ln, t) for ln, t in l)
for name, l in files.items():
    with open(f'{sys.argv[1]}/{name}.lean', 'w') as f:
        if mode == 'eval':
            f.write('import Verif.Write\nopen MdToc\nset_option maxRecDepth 100000\n')
            for i in range(0, len(l)):
                f.write('#eval if (decide (%s)) then () else dbg_trace "FAIL %d %s"; ()\n' % (l[i][2], l[i][1], l[i][0]))
        else:
            f.write('import Verif.Write\n\n/-!\n# Assertions of `/repo/md_toc/tests/tests.py` checked on the model\n\n'
                    'Generated by `/verif/tools/gen_conformance.py`.  These are tests of the model, not proofs of\n'
                    'properties.  The comment of each example is the line of the assertion.\n-/\n\n'
                    'namespace MdToc.Conformance\n\nset_option maxRecDepth 100000\n\n')
            if name == 'Write':
                f.write('/-- The text of the file after the call, `/repo/md_toc/api.py` 69-132. -/\n'
                        'def writtenText (text string marker nl : Str) : Except Exn Str :=\n'
                        '  (writeLines asciiEnv (linesKeep text) string marker nl).map '
                        '(fun r => (r.2.getLast?).getD text)\n\n')
            for fn, ln, t in l:
                f.write(f'/-- {ln} -/\nexample : {t} := by decide +kernel\n\n')
            f.write('end MdToc.Conformance\n')
