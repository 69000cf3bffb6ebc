"""Write seeded/LOG.jsonl from the results of mutate.py: seeded_log.py RESULTS.jsonl ..."""
import json, os, sys

HERE = os.path.dirname(os.path.dirname(os.path.abspath(__file__)))
# theorems which were added or made stronger because of the attempt
TIGHTENED = {
    'anchor-lower': 'C60_slug', 'anchor-emph': 'C59_emphasis_removed C60_slug', 'anchor-html': 'C58_tags_removed C60_slug',
    'html-off': 'C58_tags_removed', 'emph-off': 'C59_emphasis_removed',
    'cli-newline': 'C62_region_partial', 'cli-nl': 'C61_list', 'cli-opt': 'C61_list',
    'indent-noreset': 'C26_always', 'plain-dup': 'C01_table',
}
# what happened to an attempt besides its last run
NOTES = {
    'enc-neg': 'First run with the claim "C53: exceptions of remove_emphasis" and missed: C53 says nothing about exceptions, so the '
               'edit does not make it false. The claim broken is C52; run again with that expectation.',
    'plain-dup': 'First run missed by C01, which was about calls of build_anchor_link only; C01_table was added, which says the same '
                 'about the entries of every table. Run again with it.',
    'sep-first': 'First run with the claims C107 and C41 and missed by C41: C41 is about writing to the name -, which the edit of the '
                 'building of tables does not change. The claims broken are C107 and C34; run again with that expectation.',
}


def main():
    out, last = [], {}
    for f in sys.argv[1:]:
        for l in open(f):
            r = json.loads(l)
            if r['name'] not in last:
                out.append(r['name'])
            last[r['name']] = r
    with open(os.path.join(HERE, 'seeded', 'LOG.jsonl'), 'w') as g:
        for n in out:
            r = last[n]
            if 'problem' in r:
                continue
            g.write(json.dumps({
                'name': n, 'definition': r['definition'], 'edit': r['edit'], 'breaks': r['claim'],
                'theorems_failed': r['theorems_failed'], 'proofs_failed': r['failed_proofs'],
                'expected': r['expect'],
                'missed': [c for c in r['expect'] if not any(t.startswith(c + '_') for t in r['theorems_failed'])],
                'theorems_tightened': TIGHTENED.get(n, '').split(),
                **({'note': NOTES[n]} if n in NOTES else {})}, ensure_ascii=False) + '\n')


main()
