#!/usr/bin/env python3
"""Write COVERAGE.md: which functions of /repo/BNS_JT have a counterpart in lean/Verif/Model (from the
citations in the comments of the definitions), and the axioms of every property theorem (from the output
of `lake env lean Verif/Audit.lean`).

usage: cd lean; lake env lean Verif/Audit.lean > /tmp/axioms.out; python3 ../tools/mkdocs.py /tmp/axioms.out"""
import ast, glob, os, re, sys
root = os.path.dirname(os.path.dirname(os.path.abspath(__file__)))
src = '/repo/BNS_JT'
funs = []
def label(p):  # the modules of the package by their name, those of the demos with their directory
    return os.path.basename(p) if os.path.dirname(p) == src else '/'.join(p.split('/')[-2:])
for p in sorted(glob.glob(src + '/*.py')) + sorted(glob.glob(src + '/demos/*/*.py')):
    t = ast.parse(open(p).read())
    b = label(p)
    for n in t.body:
        if isinstance(n, ast.FunctionDef):
            funs.append((b, n.name, n.lineno, n.end_lineno))
        if isinstance(n, ast.ClassDef):
            for c in n.body:
                if isinstance(c, ast.FunctionDef):
                    funs.append((b, n.name + '.' + c.name, c.lineno, c.end_lineno))
cites = []
for f in sorted(glob.glob(root + '/lean/Verif/Model/*.lean')):
    s = open(f).read()
    pat = r'/--((?:(?!-/).)*)-/\s*(?:@\[[^\]]*\]\s*)?(?:noncomputable )?(?:def|structure|abbrev|inductive)\s+(\S+)'
    for m in re.finditer(pat, s, re.S):
        for c in re.finditer(r'((?:\w+/)?\w+\.py):(\d[\d, \-–]*)', m.group(1)):
            for a, b in re.findall(r'(\d+)(?:[-–](\d+))?', c.group(2)):
                cites.append((c.group(1), int(a), int(b or a), os.path.basename(f)[:-5] + '.' + m.group(2)))
# a citation belongs to every function whose lines it overlaps
rows, none = [], []
for b, n, lo, hi in funs:
    d = []
    for c in cites:
        if c[0] == b and c[1] <= hi and lo <= c[2] and c[3] not in d:
            d.append(c[3])
    (rows if d else none).append((b, n, lo, hi, d))
with open(root + '/COVERAGE.md', 'w') as g:
    g.write('# Coverage of the code and axioms of the theorems\n\nGenerated by `tools/mkdocs.py`.\n\n')
    g.write('## Functions with a counterpart in the model\n\n| function | lines | definitions in lean/Verif/Model |\n|---|---|---|\n')
    for b, n, lo, hi, d in rows:
        g.write(f'| `{n}` | {b}:{lo}-{hi} | {", ".join("`" + x + "`" for x in d)} |\n')
    g.write('\n## Functions without a definition that cites them (see DESIGN.md)\n\n| function | lines |\n|---|---|\n')
    for b, n, lo, hi, d in none:
        g.write(f'| `{n}` | {b}:{lo}-{hi} |\n')
    if len(sys.argv) > 1:
        s = re.sub(r'\s+', ' ', open(sys.argv[1]).read())
        g.write('\n## Axioms of the property theorems\n\n')
        by = {}
        for m in re.finditer(r"'BNS\.(\S+)' (?:depends on axioms: \[([^\]]*)\]|(does not depend on any axioms))", s):
            by.setdefault(m.group(2) or 'none', []).append(m.group(1))
        for k in sorted(by):
            g.write(f'### {k} ({len(by[k])} theorems)\n\n' + ', '.join(f'`{x}`' for x in by[k]) + '\n\n')
print(len(rows), 'modelled,', len(none), 'not')
