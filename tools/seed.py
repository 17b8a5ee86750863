"""Seeded-bug tests of the theorems.

  seed.py prepare            build scratch copies under /tmp/seed: the project, its skeleton
                             (statements without proofs) and the table of dependencies
  seed.py run [id ...]       apply each edit of seeded/mutants.py (default: those not in the log)
                             to the scratch copies and append a line to seeded/LOG.jsonl
  seed.py refute id ...      only try the refutation of an edit, print what Lean says

For every edit two things are observed. The project is rebuilt with the edited
model; the theorems whose proofs break, and the property theorems resting on
them, are listed. Then, on the skeleton with the same edit, the refutation of the
edit derives `False` from the property theorem it names: the statement itself,
not only its proof, is wrong of the edited program. The same refutation must not
go through on the skeleton without the edit.
"""
import json, os, pathlib, re, shutil, subprocess, sys, importlib.util

ROOT = pathlib.Path('/verif')
SCRATCH = pathlib.Path(os.environ.get('SEED_SCRATCH', '/tmp/seed'))
LIGHT = bool(os.environ.get('SEED_LIGHT'))
LOG = ROOT / 'seeded/LOG.jsonl'

def sh(cmd, cwd, timeout=1500):
    try:
        p = subprocess.run(cmd, cwd=cwd, shell=True, capture_output=True, text=True, timeout=timeout)
        return p.returncode, p.stdout + p.stderr
    except subprocess.TimeoutExpired:
        return 124, 'timeout'

def mutants():
    spec = importlib.util.spec_from_file_location('mutants', ROOT / 'seeded/mutants.py')
    mod = importlib.util.module_from_spec(spec); spec.loader.exec_module(mod)
    return mod.MUTANTS

def copy(src, dst):
    if dst.exists(): shutil.rmtree(dst)
    subprocess.run(['cp', '-a', str(src), str(dst)], check=True)

DEPS = '''import Lean
import Verif
open Lean Elab Command
run_cmd do
  let env ← getEnv
  let mut out := ""
  for (n, ci) in env.constants.map₁.toList do
    let some idx := env.getModuleIdxFor? n | continue
    let mod := env.header.moduleNames[idx.toNat]!
    if !(`Verif).isPrefixOf mod then continue
    let used := (ci.type.getUsedConstants ++ ((ci.value? (allowOpaque := true)).map Expr.getUsedConstants).getD #[])
    let used := used.filter fun c => match env.getModuleIdxFor? c with
      | some i => (`Verif).isPrefixOf env.header.moduleNames[i.toNat]!
      | none => false
    out := out ++ s!"{mod}\\t{n}\\t{" ".intercalate (used.toList.map toString)}\\n"
  IO.FS.writeFile "DEPSFILE" out
'''

def prepare():
    SCRATCH.mkdir(exist_ok=True)
    rc, out = sh('lake build', ROOT / 'lean'); assert rc == 0, out[-2000:]
    copy(ROOT / 'lean', SCRATCH / 'base')
    skel = SCRATCH / 'skel'
    if skel.exists(): shutil.rmtree(skel)
    skel.mkdir()
    for f in ('lakefile.toml', 'lake-manifest.json', 'lean-toolchain', 'Verif.lean'):
        if (ROOT / 'lean' / f).exists(): shutil.copy(ROOT / 'lean' / f, skel / f)
    subprocess.run(['python3', str(ROOT / 'tools/skeleton.py'), str(ROOT / 'lean/Verif'), str(skel / 'Verif')], check=True)
    rc, out = sh('lake build', skel); assert rc == 0, out[-2000:]
    (SCRATCH / 'Deps.lean').write_text(DEPS.replace('DEPSFILE', str(SCRATCH / 'deps.tsv')))
    rc, out = sh(f'lake env lean {SCRATCH}/Deps.lean', ROOT / 'lean'); assert rc == 0, out
    print('prepared')

def dependents():
    users = {}
    for l in (SCRATCH / 'deps.tsv').read_text().splitlines():
        mod, name, used = (l.split('\t') + [''])[:3]
        for u in used.split(): users.setdefault(u, set()).add(name)
    return users

def short(n): return re.sub(r'^_private\..*?\.0\.', '', n)

def enclosing(path, line):
    lines = path.read_text().splitlines()
    ns = []
    for i in range(line - 1, -1, -1):
        m = re.match(r'(?:@\[[^\]]*\]\s*)?(?:private |protected |noncomputable )*(theorem|lemma|def|instance|example|abbrev|structure|inductive)\s*([^\s:({\[]*)', lines[i])
        if m: return m.group(1), m.group(2)
    return '?', '?'

def apply(m, root):
    f = root / 'Verif' / m['file']
    t = f.read_text()
    assert t.count(m['old']) == 1, (m['id'], t.count(m['old']))
    f.write_text(t.replace(m['old'], m['new']))

def refutation(m, root):
    head = 'import Verif.Props.Demo\n' + ''.join(f'import Verif.Props.{x}\n' for x in m['modules'])
    src = head + 'set_option maxRecDepth 20000\nopen Verif Verif.Spec Verif.Demo\n' + m.get('pre', '') + \
        '\nexample : False := by\n' + '\n'.join('  ' + l for l in m['refute'].strip('\n').split('\n')) + '\n'
    p = root / 'Refute.lean'; p.write_text(src)
    rc, out = sh('lake build Verif.Props.Demo; ' + ' '.join(f'lake build Verif.Props.{x};' for x in m['modules']) + ' lake env lean Refute.lean', root, 600)
    out = '\n'.join(l for l in out.splitlines() if 'sorry' not in l)
    errs = [l for l in out.splitlines() if 'error' in l]
    return rc == 0 and not errs, out

def try_refute(m):
    skel = SCRATCH / f'skelwork{os.getpid()}'
    copy(SCRATCH / 'skel', skel)
    clean, out0 = refutation(m, skel)
    apply(m, skel)
    ok, out = refutation(m, skel)
    return ok and not clean, clean, out

def real_build(m):
    work = SCRATCH / f'work{os.getpid()}'
    copy(SCRATCH / 'base', work)
    apply(m, work)
    # SEED_LIGHT: build only the modules of the target theorem, not the whole library
    goal = ' '.join(f'Verif.Props.{x}' for x in m['modules']) if LIGHT else ''
    rc, out = sh(f'lake build {goal}', work)
    failed, examples = set(), set()
    for mm in re.finditer(r'error: (Verif/\S+?\.lean):(\d+):\d+', out):
        kind, name = enclosing(work / mm.group(1), int(mm.group(2)))
        if kind == 'example': examples.add(mm.group(1)[6:-5])
        else: failed.add(name)
    return rc, failed, examples, out

def run(ids):
    done = {json.loads(l)['id'] for l in LOG.read_text().splitlines()} if LOG.exists() else set()
    users = dependents()
    names = set(users) | {u for s in users.values() for u in s}
    for m in mutants():
        if (ids and m['id'] not in ids) or (not ids and m['id'] in done): continue
        rc, failed, examples, out = real_build(m)
        roots = {n for n in names if any(short(n) == f or short(n).endswith('.' + f) for f in failed)}
        seen, todo = set(roots), list(roots)
        while todo:
            for u in users.get(todo.pop(), ()):
                if u not in seen: seen.add(u); todo.append(u)
        claims = sorted({short(n).split('.')[-1] for n in seen if re.match(r'C\d+_', short(n).split('.')[-1])})
        ok = clean = None
        if m.get('refute'): ok, clean, rout = try_refute(m)
        if ok and m['target'] not in claims: claims = sorted(claims + [m['target']])
        line = {'id': m['id'], 'definition': f"{m['definition']} ({m['file']})",
                'edit': {'old': m['old'], 'new': m['new']}, 'claim_broken': f"{m['claim']}: {m['english']}",
                'build': 'passes' if rc == 0 else 'fails', 'proofs_broken': sorted(failed),
                'examples_broken_in': sorted(examples), 'theorems_failed': claims,
                'statement_refuted': (m['target'] if ok else None) if m.get('refute') else None,
                'theorems_tightened': m.get('tightened', []), 'note': m.get('note', '')}
        if LIGHT: line['built'] = m['modules']
        with LOG.open('a') as f: f.write(json.dumps(line, ensure_ascii=False) + '\n')
        print(m['id'], 'build', line['build'], len(failed), 'lemmas', len(claims), 'claims; refuted', ok, 'clean', clean, flush=True)
        if m.get('refute') and not ok: print(rout[-1500:], flush=True)
        if rc != 0 and not failed: print(out[-1500:], flush=True)

if __name__ == '__main__':
    if sys.argv[1] == 'prepare': prepare()
    elif sys.argv[1] == 'run': run(sys.argv[2:])
    elif sys.argv[1] == 'refute':
        for m in mutants():
            if m['id'] in sys.argv[2:]:
                ok, clean, out = try_refute(m)
                print(m['id'], 'refuted' if ok else 'NOT refuted', '(goes through without the edit!)' if clean else '')
                if not ok: print(out[-1800:])
