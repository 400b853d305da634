"""Mutation tests: apply each edit to a scratch copy of the Lean project, rebuild, record which theorems fail.
usage: mutate.py muts.json out.jsonl  (scratch copy in /tmp/mut, made from /verif/lean)
A mutant is [definition, file, old, new, description of the edit, claim it breaks]."""
import json, subprocess, sys, re, os
SCR = os.environ.get('MUTDIR', '/tmp/mut')
def sh(c, **k): return subprocess.run(c, shell=True, capture_output=True, text=True, **k)
def prep():
    sh(f'rm -rf {SCR} && cp -a /verif/lean {SCR}')
def enclosing(path, line):
    name = None
    ls = open(path).read().split('\n')
    for i in range(min(line, len(ls)) - 1, -1, -1):
        m = re.match(r'^(?:@\[.*?\]\s*)?(?:private |noncomputable |protected )*(theorem|def|lemma|example|instance|abbrev)\b\s*([^\s:(\[{]*)', ls[i])
        if m:
            return m.group(2) if m.group(2) else 'example@%s:%d' % (os.path.basename(path), i + 1)
    return '?'
def run(m):
    d, f, old, new, edit, claim = m
    p = f'{SCR}/Verif/{f}'
    s = open(p).read()
    if s.count(old) < 1:
        return dict(definition=d, edit=edit, error='pattern not found')
    i = s.index(old)
    # prefer occurrence inside the definition
    k = s.find('def ' + d.split('.')[-1] + ' ')
    if k >= 0 and s.find(old, k) >= 0: i = s.find(old, k)
    open(p, 'w').write(s[:i] + new + s[i + len(old):])
    r = sh(f'cd {SCR} && timeout 1500 lake build 2>&1')
    out = r.stdout
    open(p, 'w').write(s)
    errs = re.findall(r'^error: (Verif/\S+?\.lean):(\d+):\d+', out, re.M)
    failed = []
    for (g, l) in errs:
        n = enclosing(f'{SCR}/{g}', int(l))
        if n not in failed: failed.append(n)
    mods = sorted(set(g for g, _ in errs))
    return dict(definition=d, file='lean/Verif/' + f, edit=edit, claim_broken=claim, theorems_failed=failed, modules_failed=mods,
                outcome='killed' if errs else ('build failed' if r.returncode else 'SURVIVED'), theorems_tightened=[])
if __name__ == '__main__':
    muts = json.load(open(sys.argv[1]))
    prep()
    for m in muts:
        r = run(m)
        open(sys.argv[2], 'a').write(json.dumps(r, ensure_ascii=False) + '\n')
        print(r.get('outcome', r.get('error')), r['definition'], '|', r['edit'], '|', r.get('theorems_failed', [])[:6], flush=True)
