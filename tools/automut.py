"""Random operator mutants of the model: automut.py N seed out.jsonl [files...]. Each mutant changes one token of one definition of a
Verif/Model file in the scratch copy; mutants the model itself does not compile with are skipped. Survivors are printed for a decision by hand."""
import json, random, re, sys, os, time
sys.path.insert(0, os.path.dirname(os.path.abspath(__file__)))
import mutate
from mutate import SCR, sh, enclosing
OPS = [(r' ≤ ', [' < ']), (r' < ', [' ≤ ']), (r' \+ ', [' - ']), (r' - ', [' + ']), (r' \* ', [' + ']), (r' / ', [' * ']), (r' ∧ ', [' ∨ ']), (r' ∨ ', [' ∧ ']),
       (r' && ', [' || ']), (r' \|\| ', [' && ']), (r' ∈ ', [' ∉ ']), (r' ∉ ', [' ∈ ']), (r' = ', [' ≠ ']), (r' ≠ ', [' = ']), (r'\.1\b', ['.2']), (r'\.2\b', ['.1']),
       (r'\btrue\b', ['false']), (r'\bfalse\b', ['true']), (r'\b0\b', ['1']), (r'\b1\b', ['0', '2']), (r'\.isNone\b', ['.isSome']), (r'\.isSome\b', ['.isNone']),
       (r'\.reverse\b', ['']), (r'\.filter \(', ['.filter (fun x => !']), (r'\.any\b', ['.all']), (r'\.all\b', ['.any']), (r'¬ ', ['']), (r'\.tail\b', ['']), (r'\.dedup\b', ['']),
       (r'\bmin\b', ['max']), (r'\bmax\b', ['min']), (r'if (.+?) then (.+?) else (.+)$', ['if \\1 then \\3 else \\2']), (r'\.take\b', ['.drop']), (r'\.drop\b', ['.take']),
       (r'\.head\?', ['.getLast?']), (r'∀ ', ['∃ '])]
def sites(path):
    s = open(path).read()
    # blank out comments, keeping positions
    t = re.sub(r'/-.*?-/', lambda m: re.sub(r'[^\n]', ' ', m.group(0)), s, flags=re.S)
    t = re.sub(r'--[^\n]*', lambda m: ' ' * len(m.group(0)), t)
    res = []; name = None; pos = 0; sig = False
    for line in t.split('\n'):
        m = re.match(r'(?:private |noncomputable |partial )*(def|abbrev)\s+(\S+)', line)
        if re.match(r'\S', line) and not m: name = None
        if m: name = m.group(2); sig = True
        if name:
            start = 0
            if sig:
                k = line.find(':=')
                k2 = line.find(' | ') if line.startswith('  |') else -1
                if k >= 0: start = k + 2; sig = False
                elif line.startswith('  |'): start = 0; sig = False
                else: start = len(line)
            if start < len(line):
                k = line.find('=>') if line.lstrip().startswith('|') else -1
                if k >= 0 and start == 0: start = k
                for (pat, reps) in OPS:
                    for m2 in re.finditer(pat, line[start:]):
                        for rp in reps:
                            new = m2.expand(rp) if '\\' in rp else rp
                            res.append((name, pos + start + m2.start(), pos + start + m2.end(), new, line.strip()))
        pos += len(line) + 1
    return s, res
def main():
    N = int(sys.argv[1]); rnd = random.Random(int(sys.argv[2])); out = sys.argv[3]; files = sys.argv[4:]
    mutate.prep()
    if not files: files = sorted(os.listdir(f'{SCR}/Verif/Model'))
    n = 0
    while n < N:
        f = rnd.choice(files); p = f'{SCR}/Verif/Model/{f}'
        s, st = sites(p)
        if not st: continue
        name, a, b, new, line = rnd.choice(st)
        open(p, 'w').write(s[:a] + new + s[b:])
        mod = 'Verif.Model.' + f[:-5]
        t0 = time.time()
        r0 = sh(f'cd {SCR} && timeout 600 lake build {mod} 2>&1')
        if r0.returncode != 0:
            open(p, 'w').write(s); continue
        r = sh(f'cd {SCR} && timeout 1500 lake build 2>&1')
        open(p, 'w').write(s)
        errs = re.findall(r'^error: (Verif/\S+?\.lean):(\d+):\d+', r.stdout, re.M)
        failed = []
        for (g, l) in errs:
            e = enclosing(f'{SCR}/{g}', int(l))
            if e not in failed: failed.append(e)
        n += 1
        o = 'killed' if errs else ('build failed' if r.returncode else 'SURVIVED')
        rec = dict(definition=name, file='lean/Verif/Model/' + f, edit=f'random: `{s[a:b].strip()}` -> `{new.strip()}` in `{line[:160]}`', claim_broken='', theorems_failed=failed[:12],
                   modules_failed=sorted(set(g for g, _ in errs)), outcome=o, theorems_tightened=[])
        open(out, 'a').write(json.dumps(rec, ensure_ascii=False) + '\n')
        print(o, f, rec['definition'], '|', rec['edit'], '|', failed[:4], f'{time.time()-t0:.0f}s', flush=True)
main()
