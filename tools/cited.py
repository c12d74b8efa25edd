#!/usr/bin/env python3
"""Write COVERAGE.md: for each source file of /repo the lines cited by definitions of the model."""
import re, os, glob, collections
root = os.path.dirname(os.path.dirname(os.path.abspath(__file__)))
repo = '/repo'
files = {}
for d in ('src', 'src/pvxs', 'ioc', 'tools'):
    for f in sorted(os.listdir(repo + '/' + d)):
        if f.endswith(('.cpp', '.h')):
            files[d + '/' + f] = sum(1 for _ in open(repo + '/' + d + '/' + f, errors='replace'))
base = collections.defaultdict(list)
for f in files:
    base[os.path.basename(f)].append(f)
cited = collections.defaultdict(set)
by = collections.defaultdict(set)
tok = re.compile(r'(?:/repo/)?((?:[A-Za-z_]+/)*[A-Za-z_]+\.(?:cpp|h))|(?<![\w.])[:,]\s*:?(\d+)(?:-(\d+))?|and :(\d+)(?:-(\d+))?')
for m in sorted(glob.glob(root + '/lean/Verif/Model/*.lean')):
    text = open(m).read()
    for c in re.finditer(r'/-.*?-/', text, re.S):
        cur = None
        pos = 0
        for t in re.finditer(r'(?:/repo/)?((?:[A-Za-z_]+/)*[A-Za-z_]+\.(?:cpp|h))\b|:(\d+)(?:-(\d+))?|(?<=\d),\s*:?(\d+)(?:-(\d+))?', c.group(0)):
            if t.group(1):
                n = t.group(1)
                if n in files: cur = n
                elif len(base.get(os.path.basename(n), [])) == 1: cur = base[os.path.basename(n)][0]
                else: cur = None
                if cur: by[cur].add(os.path.basename(m)[:-5])
            elif cur:
                a = int(t.group(2) or t.group(4)); b = int(t.group(3) or t.group(5) or a)
                if a <= b <= files[cur]:
                    cited[cur].update(range(a, b + 1))
def ranges(s):
    out = []
    for x in sorted(s):
        if out and x == out[-1][1] + 1: out[-1][1] = x
        else: out.append([x, x])
    return ', '.join('%d-%d' % (a, b) if a < b else str(a) for a, b in out)
with open(root + '/COVERAGE.md', 'w') as o:
    o.write('# Lines of /repo cited by the model\n\nWritten by tools/cited.py from the comments in lean/Verif/Model.  A line which is cited is modelled up to the simplifications\nstated where it is cited; a line which is not cited is not modelled.\n\n| file | lines | cited | modules | ranges |\n|---|---|---|---|---|\n')
    for f in sorted(files):
        if f in by:
            o.write('| %s | %d | %d | %s | %s |\n' % (f, files[f], len(cited[f]), ' '.join(sorted(by[f])), ranges(cited[f]) or 'named, without lines'))
    o.write('\nFiles of which nothing is modelled: ' + ', '.join(f for f in sorted(files) if f not in by) + '.\n')
