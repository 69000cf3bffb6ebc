#!/usr/bin/env python3
"""Write AXIOMS.md: the axioms of each theorem of MANIFEST.json, as printed by Lean."""
import json
import os
import re
import subprocess
import tempfile

HERE = os.path.dirname(os.path.dirname(os.path.abspath(__file__)))


def main():
    claims = json.load(open(os.path.join(HERE, 'MANIFEST.json')))['claims']
    names = list(dict.fromkeys(t for c in claims for t in c['theorems']))
    with tempfile.NamedTemporaryFile('w', suffix='.lean', delete=False) as f:
        f.write('import Verif\n' + ''.join('#print axioms %s\n' % n for n in names))
    out = subprocess.run(['lake', 'env', 'lean', f.name], cwd=os.path.join(HERE, 'lean'), capture_output=True, text=True).stdout
    os.unlink(f.name)
    out = re.sub(r'\n\s+', ' ', out)
    got = {}
    for line in out.splitlines():
        m = re.match(r"'([^']+)' (?:depends on axioms: \[(.*)\]|does not depend on any axioms)", line)
        got[m[1]] = m[2] or 'none'
    assert list(got) == names
    with open(os.path.join(HERE, 'AXIOMS.md'), 'w') as f:
        f.write('# Axioms of the theorems in MANIFEST.json\n\nOutput of `#print axioms` (tools/gen_axioms.py).\n\n| theorem | axioms |\n| --- | --- |\n')
        f.write(''.join('| `%s` | %s |\n' % (n, got[n]) for n in names))
    print(len(names), sorted(set(got.values())))


main()
