#!/usr/bin/env python3
"""Try wrong programs: python3 tools/seed.py mutants.json [first] -- each mutant is applied to a
scratch copy of lean/ in /tmp/scratch, which is rebuilt; the outcome is appended to
/tmp/scratch/results.jsonl.  A mutant is {def, file, old, new, claim, why}."""
import json, os, re, subprocess, sys
S = '/tmp/scratch/lean'
SRC = '/verif/lean/'
def sync():
    os.makedirs(S, exist_ok=True)
    subprocess.run(['rsync', '-a', '--delete', SRC, S + '/'], check=True) if shutil_which('rsync') else \
        subprocess.run('rm -rf %s/Verif && cp -a %sVerif %sVerif.lean %slakefile.toml %slean-toolchain %slake-manifest.json %s/ 2>/dev/null; [ -d %s/.lake ] || cp -a %s.lake %s/' % (S, SRC, SRC, SRC, SRC, SRC, S, S, SRC, S), shell=True)
def shutil_which(x):
    import shutil
    return shutil.which(x)
def decl_at(path, line):
    name = '?'
    for i, l in enumerate(open(path).read().split('\n'), 1):
        m = re.match(r'\s*(?:noncomputable )?(?:private )?(theorem|lemma|def|instance|example|structure)\b\s*(\S*)', l)
        if m and i <= line:
            name = m.group(2).rstrip(':') if m.group(1) != 'example' else 'example'
    return name
def main():
    muts = json.load(open(sys.argv[1]))
    sync()
    for m in muts:
        p = os.path.join(S, 'Verif', m['file'])
        src = open(p).read()
        n = src.count(m['old'])
        if n != 1:
            print('BAD PATTERN', m['def'], n, repr(m['old']), flush=True); continue
        open(p, 'w').write(src.replace(m['old'], m['new']))
        r = subprocess.run('lake build 2>&1', shell=True, cwd=S, capture_output=True, text=True)
        open(p, 'w').write(src)
        failed = []
        for f, l in re.findall(r'^error: (Verif/\S+\.lean):(\d+):', r.stdout, re.M):
            d = decl_at(os.path.join(S, f), int(l))
            x = f[6:-5] + ':' + d
            if x not in failed: failed.append(x)
        bad = [x for x in failed if m['file'][:-5] == x.split(':')[0]]
        out = dict(m, ok=(r.returncode == 0), failed=failed, broken_model=bool(bad))
        with open('/tmp/scratch/results.jsonl', 'a') as g: g.write(json.dumps(out) + '\n')
        print(('SURVIVED ' if r.returncode == 0 else 'killed   ') + ('MODEL-ERR ' if bad else ''), m['def'], '|', m['claim'], '|', failed, flush=True)
main()
