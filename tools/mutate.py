#!/usr/bin/env python3
"""mutate.py LIST.json : apply each edit to a scratch copy of the Lean project, rebuild, and append the outcome to
seeded/LOG.jsonl.  LIST.json: [{"id", "file", "old", "new", "claim", "why"}]; `file` relative to lean/Verif."""
import json, os, re, subprocess, sys, shutil, datetime
SRC = '/verif/lean'; DST = '/tmp/mut/lean'; LOG = '/verif/seeded/LOG.jsonl'

def enclosing(path, line):
    name = None
    for i, l in enumerate(open(path), 1):
        if i > line: break
        m = re.match(r'\s*(?:private |protected |noncomputable |@\[[^\]]*\] )*(theorem|lemma|def|example|instance|abbrev|inductive|structure)\b\s*([^\s:({\[]*)', l)
        if m: name = m.group(2) if m.group(1) != 'example' else 'example@%d' % i
    return name

def main():
    muts = json.load(open(sys.argv[1]))
    global SRC
    snap = '/tmp/mut/src'; os.makedirs('/tmp/mut', exist_ok=True)
    shutil.rmtree(snap, ignore_errors=True); subprocess.run(['cp', '-a', SRC, snap], check=True); SRC = snap
    for m in muts:
        os.makedirs(os.path.dirname(DST), exist_ok=True)
        shutil.rmtree(DST, ignore_errors=True); subprocess.run(['cp', '-a', SRC, DST], check=True)
        p = os.path.join(DST, 'Verif', m['file'])
        s = open(p).read()
        if s.count(m['old']) != 1:
            print(m['id'], 'SKIP: pattern found', s.count(m['old']), 'times'); continue
        k = s.index(m['old'])
        defname = enclosing(p, s[:k].count('\n') + 1)
        open(p, 'w').write(s.replace(m['old'], m['new']))
        r = subprocess.run(['lake', 'build'], cwd=DST, capture_output=True, text=True)
        out = r.stdout + r.stderr
        failed = []
        for f, ln in re.findall(r'error: (Verif/\S+\.lean):(\d+):\d+', out):
            n = f[6:-5].replace('/', '.') + '.' + str(enclosing(os.path.join(DST, f), int(ln)))
            if n not in failed: failed.append(n)
        notbuilt = sorted(set(re.findall(r'Verif\.Props\.\w+', '\n'.join(l for l in out.splitlines() if 'bad import' in l or 'error' in l))))
        verdict = 'caught' if r.returncode != 0 else 'SURVIVED'
        rec = {"definition": m['file'][:-5].replace('/', '.') + '.' + str(defname), "edit": m['old'].strip() + '  ==>  ' + m['new'].strip(),
               "claim": m['claim'], "why": m.get('why', ''), "outcome": verdict, "theorems_failed": failed[:12],
               "theorems_tightened": [], "mutation": m['id']}
        print(m['id'], verdict, failed[:6], flush=True)
        with open(LOG, 'a') as fh: fh.write(json.dumps(rec) + '\n')
main()
