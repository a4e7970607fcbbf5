#!/usr/bin/env python3
"""Mutation testing of the theorems.

usage: mutate.py SPEC.jsonl OUT.jsonl [SCRATCH]

Each line of SPEC: {"file": "Model/X.lean", "definition": "...", "old": "...", "new": "...",
"claim": "...", "expect": ["C01", ...]}. The edit is made in a scratch copy of lean/. Every proof that
then fails is replaced by `sorry` until everything builds; the property theorems that depend on a
failed proof are the ones that noticed the edit.

With FAST=1 only the modules of the expected properties are built, and a mutant is done as soon as theorems of
all expected properties depend on failed proofs, according to the dependencies in the unchanged development.
"""
import json, os, re, subprocess, sys, shutil, time

ROOT = os.path.join(os.path.dirname(os.path.abspath(__file__)), '..')
BASE = os.environ.get('BASE', ROOT + '/lean')
SCRATCH = sys.argv[3] if len(sys.argv) > 3 else '/tmp/mut/lean'
DECL = re.compile(r'^(@\[[^\]]*\]\s*)?(private |protected |noncomputable )*(theorem|lemma|def|abbrev|example|instance|inductive|structure|class|macro|syntax|run_cmd|open|namespace|end|variable|section|/-|set_option|attribute|deriving|omit|mutual|#)')


def sync():
    shutil.rmtree(SCRATCH, ignore_errors=True)
    subprocess.run(['cp', '-a', BASE, SCRATCH], check=True)


def split_decl(lines, ln):
    """Range [i, j) of the declaration containing line ln (0-based)."""
    i = ln
    while i > 0 and not re.match(r'^(@\[[^\]]*\]\s*)?(private |protected |noncomputable )*(theorem|def|abbrev|example|instance|inductive|structure)\b', lines[i]):
        i -= 1
    j = i + 1
    while j < len(lines) and not DECL.match(lines[j]):
        j += 1
    return i, j


def namespace(lines, i):
    """Namespace in which line i stands."""
    ns = []
    for l in lines[:i]:
        m = re.match(r'^(namespace|section|mutual|end)\b ?(\S*)', l)
        if m and m.group(1) == 'end':
            if ns:
                ns.pop()
        elif m:
            ns.append(m.group(2) if m.group(1) == 'namespace' else '')
    return '.'.join(n for n in ns if n)


def block_names(lines, i):
    """Names of the theorems proved together with the one at line i, in a `mutual` block."""
    a = i
    while a > 0 and not re.match(r'^(mutual|end)\b', lines[a]):
        a -= 1
    if not lines[a].startswith('mutual'):
        return []
    b = i
    while b < len(lines) and not re.match(r'^end\b', lines[b]):
        b += 1
    ns = namespace(lines, i)
    found = [re.match(r'^(?:@\[[^\]]*\]\s*)?(?:private |protected )*theorem\s+(\S+)', l) for l in lines[a:b]]
    return [ns + '.' + m.group(1) for m in found if m]


def proof_start(text):
    depth = 0
    k = 0
    last = None
    while k < len(text):
        c = text[k]
        if c in '([{⟨':
            depth += 1
        elif c in ')]}⟩':
            depth -= 1
        elif depth == 0 and text.startswith(':=', k):
            rest = text[k + 2:k + 4]
            before = text[:k].rstrip().split('\n')[-1].strip()
            if not re.search(r'\blet \w+$', before):
                return k
        elif depth == 0 and re.match(r'\n  \| ', text[k:k + 5]):
            return k
        k += 1
    return None


FAST = os.environ.get('FAST')
DEPS = '''import Lean
%s
open Lean Elab Command
run_cmd do
  let env ← getEnv
  let mut out : Array String := #[]
  let ours : Name → Bool := fun n => (n.toString.startsWith "Verif.") || (n.toString.startsWith "_private.Verif")
  for (n, c) in env.constants.map₁.toList do
    if ours n then
      let mut used := c.type.getUsedConstants
      if let some v := c.value? (allowOpaque := true) then used := used ++ v.getUsedConstants
      out := out.push (n.toString ++ "\\t" ++ " ".intercalate ((used.filter ours).map (·.toString)).toList)
  IO.FS.writeFile "%s" ("\\n".intercalate out.toList)
'''


def prop_modules(lean):
    return ['Verif.Props.' + f[:-5] for f in sorted(os.listdir(lean + '/Verif/Props')) if f.endswith('.lean')]


def dependencies():
    """Property theorem -> constants it depends on, in the unchanged development."""
    path = SCRATCH + '.deps'
    open(SCRATCH + '.deps.lean', 'w').write(DEPS % ('\n'.join('import ' + m for m in prop_modules(BASE)), path))
    subprocess.run(['lake', 'env', 'lean', SCRATCH + '.deps.lean'], cwd=BASE, check=True)
    direct = {}
    for l in open(path):
        n, _, us = l.rstrip('\n').partition('\t')
        direct[n] = us.split()
    res = {}
    for n in direct:
        if re.match(r'^Verif\.C\d{2,3}_\w+$', n):
            seen, todo = {n}, [n]
            while todo:
                for u in direct.get(todo.pop(), []):
                    if u not in seen:
                        seen.add(u)
                        todo.append(u)
            res[n[6:]] = seen
    return res


def depending(deps, failed):
    """Property theorems depending on one of the failed proofs."""
    hit = set()
    for n, seen in deps.items():
        for f in failed:
            if f and (f in seen or any(c.endswith('.' + f) for c in seen if c.startswith('_private'))):
                hit.add(n)
                break
    return sorted(hit)


def missed(expect, killed):
    return [e for e in expect if not any(k.startswith(e + '_') and not k.endswith('_violated') for k in killed)]


def build(expect=()):
    mods = prop_modules(SCRATCH)
    if FAST and expect:
        mods = [m for m in mods if any(re.search(r'^theorem ' + e + '_', open(SCRATCH + '/' + m.replace('.', '/') + '.lean').read(), re.M) for e in expect)]
    p = subprocess.run(['lake', 'build'] + mods, cwd=SCRATCH, capture_output=True, text=True)
    return p.returncode, p.stdout + p.stderr


CHECK = '''import Lean
%s
open Lean Elab Command
run_cmd do
  let env ← getEnv
  let mut names : Array Name := #[]
  for (n, c) in env.constants.map₁.toList do
    if let .thmInfo _ := c then
      let s := n.toString
      if s.startsWith "Verif.C" && s.length > 9 && (s.toList.getD 7 'x').isDigit && (s.toList.getD 8 'x').isDigit then
        names := names.push n
  for n in names do
    let ax ← liftCoreM (collectAxioms n)
    logInfo m!"THM {n} {ax.contains ``sorryAx}"
'''


def run(spec, deps=None):
    sync()
    path = SCRATCH + '/Verif/' + spec['file']
    s = open(path).read()
    if s.count(spec['old']) != 1:
        return {'error': 'pattern occurs %d times' % s.count(spec['old'])}
    open(path, 'w').write(s.replace(spec['old'], spec['new']))
    failed, examples, full = [], [], []
    for _ in range(40):
        rc, out = build(spec.get('expect', []))
        errs = {}
        for m in re.finditer(r'^error: (Verif/\S+\.lean):(\d+):(\d+)', out, re.M):
            errs.setdefault(m.group(1), []).append(int(m.group(2)) - 1)
        if rc == 0:
            break
        if not errs:
            # evaluating an example that is now false can exhaust the memory: drop the examples of the module
            dropped = False
            for m in re.finditer(r'^- (Verif\.\S+)$', out, re.M):
                p = SCRATCH + '/' + m.group(1).replace('.', '/') + '.lean'
                lines = open(p).read().split('\n')
                for i in range(len(lines)):
                    if re.match(r'^example\b(?! : True := trivial)', lines[i]):
                        i, j = split_decl(lines, i)
                        examples.append('%s:%d' % (m.group(1), i + 1))
                        lines[i:j] = ['example : True := trivial'] + [''] * (j - i - 1)
                        dropped = True
                open(p, 'w').write('\n'.join(lines))
            if not dropped:
                return {'error': 'build failed without positions', 'out': out[-800:]}
            continue
        for f, lns in errs.items():
            p = SCRATCH + '/' + f
            lines = open(p).read().split('\n')
            seen = set()
            for ln in sorted(set(lns), reverse=True):
                i, j = split_decl(lines, ln)
                if i in seen:
                    continue
                seen.add(i)
                head = lines[i]
                text = '\n'.join(lines[i:j])
                if re.match(r'^example', head):
                    examples.append('%s:%d' % (f, i + 1))
                    # keep a declaration for the comment before it
                    lines[i:j] = ['example : True := trivial'] + [''] * (j - i - 1)
                    continue
                m = re.match(r'^(?:@\[[^\]]*\]\s*)?(?:private |protected )*(theorem|instance)\s+(\S+)?', head)
                if not m:
                    return {'error': 'definition fails', 'where': f + ': ' + head, 'out': out[-1500:]}
                if 'sorry' in text and text.rstrip().endswith('by sorry'):
                    # statement itself does not elaborate: drop it
                    if m.group(2) not in failed:
                        failed.append(m.group(2))
                    return {'error': 'statement fails', 'where': f + ': ' + head, 'failed': failed, 'out': out[-1500:]}
                k = proof_start(text)
                if k is None:
                    return {'error': 'cannot cut', 'where': f + ': ' + head}
                new = (text[:k] + ' := by sorry').split('\n')
                new += [''] * ((j - i) - len(new))
                lines[i:j] = new
                failed.append(m.group(2))
                full.append(namespace(lines, i) + '.' + (m.group(2) or ''))
                full += block_names(lines, i)
            open(p, 'w').write('\n'.join(lines))
        if FAST and spec.get('expect'):
            killed = depending(deps, full)
            if not missed(spec['expect'], killed):
                return {'failed': failed, 'examples': examples, 'killed': killed}
    else:
        return {'error': 'did not converge', 'failed': failed}
    if FAST and spec.get('expect'):
        return {'failed': failed, 'examples': examples, 'killed': depending(deps, full)}
    mods = ['import Verif.Props.' + f[:-5] for f in sorted(os.listdir(SCRATCH + '/Verif/Props')) if f.endswith('.lean')]
    open(SCRATCH + '/Check.lean', 'w').write(CHECK % '\n'.join(mods))
    p = subprocess.run(['lake', 'env', 'lean', 'Check.lean'], cwd=SCRATCH, capture_output=True, text=True)
    killed = sorted(m.group(1)[6:] for m in re.finditer(r'THM (\S+) true', p.stdout))
    killed = [k for k in killed if '.' not in k]
    return {'failed': failed, 'examples': examples, 'killed': killed}


if __name__ == '__main__':
    deps = dependencies() if FAST else None
    for line in open(sys.argv[1]):
        if not line.strip():
            continue
        spec = json.loads(line)
        t = time.time()
        res = run(spec, deps)
        res['seconds'] = round(time.time() - t)
        res['expect_missed'] = missed(spec.get('expect', []), res.get('killed', []))
        with open(sys.argv[2], 'a') as f:
            f.write(json.dumps({**spec, **res}, ensure_ascii=False) + '\n')
        print(spec['definition'], '|', res.get('error', ''), '| missed', res['expect_missed'], '| killed', len(res.get('killed', [])), res['seconds'], 's', flush=True)
