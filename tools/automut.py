"""Systematic edits of the model, to find code no theorem speaks about.

  automut.py prepare       copy the project to /tmp/mut/base; examples, demonstration
                           states and `_violated` witnesses lose their proofs there
  automut.py list          print the edits generated from the model
  automut.py run [file..]  apply each edit in turn and rebuild, stopping at the first
                           proof that breaks; edits under which everything still
                           builds are the survivors, written to /tmp/mut/out.jsonl;
                           edits whose keys are in /tmp/mut/first.txt come first

A survivor is either harmless (the edited program behaves the same where the
properties speak) or shows a gap in the statements; that is decided by hand.
"""
import json, os, pathlib, random, re, signal, subprocess, sys, time
sys.path.insert(0, str(pathlib.Path(__file__).parent))
from skeleton import split, body_at

ROOT = pathlib.Path('/verif'); W = pathlib.Path('/tmp/mut')

def soften(text):
    out = []
    for c in split(text):
        m = re.match(r'(?:@\[[^\]]*\]\s*)?(?:private |protected )?(?:theorem|lemma)\s+(\S+)', c)
        if re.match(r'example\b', c): continue
        if m and (re.search(r'violated|[Dd]emo|Ix', m.group(1))):
            i = body_at(c)
            for mm in (re.search(r'\n  \| ', c), re.search(r' where\n', c)):
                if mm and (i is None or mm.start() < i): i = mm.start()
            out.append(c[:i].rstrip() + ' := by sorry\n'); continue
        out.append(c)
    t = '\n'.join(out); prev = None
    while prev != t:
        prev = t
        t = re.sub(r'/--(?:(?!-/).)*-/\s*(?=(/--|/-!|end\b|namespace|section|open|$|variable|mutual))', '', t, flags=re.S)
        t = re.sub(r'(set_option [^\n]* in\n)(?=\s*(end|namespace|/-|set_option|open|$))', '', t)
    return t

def prepare():
    W.mkdir(exist_ok=True)
    subprocess.run(f'rm -rf {W}/base && cp -a {ROOT}/lean {W}/base', shell=True, check=True)
    for p in (W / 'base/Verif/Props').glob('*.lean'):
        t = p.read_text()
        s = soften(t) if p.name != 'Demo.lean' else re.sub(r'(theorem [^\n]*?) :=.*?(?=\n\n|\Z)', r'\1 := by sorry', t, flags=re.S)
        if s != t: p.write_text(s)
    r = subprocess.run('lake build', cwd=W / 'base', shell=True, capture_output=True, text=True)
    print(r.returncode, '\n'.join(l for l in r.stdout.split('\n') if 'error' in l)[:3000])

GROUPS = [
    ['arg.from_', 'arg.to_', 'nft.owner', 'spender', 'fromAcc'],
    ['info.spender', 'fromAcc', 'from_'],
    ['.maxApprovals', '.maxRevoke'],
    ['.maxQueryBatch', '.maxUpdateBatch', '.maxTake', '.defaultTake', '.maxMemo', '.supplyCap'],
    ['.permittedDrift', '.txWindow', '.maxStorageThreshold'],
    ['.description', '.logo'], ['.symbol', '.name'],
    ['.readUploads', '.updateUploads', '.manageAuthorities'], ['.minting', '.updateMetadata', '.updateCollectionMetadata'],
    ['now', 'arg.createdAt', 'info.createdAt'], ['caller', 'p'], ['key', 'path'],
    ['.tokAppr', '.collAppr'], ['.redirects', '.router'],
    ['.createdAt', '.expiresAt'], ['.init', '.inProgress', '.finalized'],
    ['prev', 'new'], ['start', 'length'],
]
def edits():
    res = []
    for p in sorted((W / 'base/Verif/Model').glob('*.lean')):
        t = p.read_text()
        # positions outside comments
        code = re.sub(r'/-.*?-/|--[^\n]*', lambda m: re.sub(r'[^\n]', ' ', m.group(0)), t, flags=re.S)
        def at(i):
            d = re.findall(r'^(?:private |@\[[^\]]*\] )*(?:def|abbrev|structure|inductive|instance|theorem)\s+(\S+)', code[:i], flags=re.M)
            return d[-1] if d else '?'
        def kind(i):
            d = re.findall(r'^(?:private |@\[[^\]]*\] )*(def|abbrev|structure|inductive|instance|theorem|deriving)', code[:i], flags=re.M)
            return d[-1] if d else '?'
        def add(i, j, new, op):
            if kind(i) not in ('def', 'abbrev'): return
            res.append(dict(file=p.name, pos=i, end=j, old=t[i:j], new=new, op=op, definition=at(i), line=t.count('\n', 0, i) + 1))
        for a, b in ((' ≤ ', ' < '), (' < ', ' ≤ '), (' ≥ ', ' > '), (' > ', ' ≥ '), (' ∧ ', ' ∨ '), (' ∨ ', ' ∧ '), (' && ', ' || '),
                     (' || ', ' && '), (' ≠ ', ' = '), (' == ', ' != '), (' != ', ' == '), (' + 1', ''), (' - 1', ''), (' ++ ', None)):
            for m in re.finditer(re.escape(a), code):
                if b is not None: add(m.start(), m.end(), b, 'op')
        for m in re.finditer(r'\bif ([^\n]*?) then', code):
            add(m.start(1), m.end(1), f'¬ ({m.group(1)})', 'negate')
            if ':' not in m.group(1): add(m.start(1), m.end(1), 'False', 'never')
            if ':' not in m.group(1): add(m.start(1), m.end(1), 'True', 'always')
        for m in re.finditer(r'\b(true|false)\b', code):
            add(m.start(), m.end(), 'false' if m.group(1) == 'true' else 'true', 'bool')
        for m in re.finditer(r'(?<![\w.\]])(\d+)(?![\w.])', code):
            if re.search(r'\^\s*$', code[:m.start()]): pass
            add(m.start(), m.end(), str(int(m.group(1)) + 1), 'lit')
        for m in re.finditer(r'"([^"\n]*)"', code):
            add(m.start(), m.end(), '"' + m.group(1) + '~"', 'str')
        # drop one field of a record update
        for m in re.finditer(r'\bwith ((?:\w+ := (?:[^{}\n]|\{[^{}]*\})+?))\s*\}', code):
            parts, depth, cur = [], 0, m.start(1)
            for i in range(m.start(1), m.end(1)):
                if code[i] in '([{⟨': depth += 1
                if code[i] in ')]}⟩': depth -= 1
                if code[i] == ',' and depth == 0: parts.append((cur, i)); cur = i + 1
            parts.append((cur, m.end(1)))
            if len(parts) > 1:
                for k, (a, b) in enumerate(parts):
                    if k + 1 < len(parts): add(a, b + 1, '', 'dropfield')
                    else: add(parts[k - 1][1], b, '', 'dropfield')
            else:
                src = re.search(r'\{\s*(\w+)\s*$', code[:m.start()])
                if src: add(src.start(), m.end(), src.group(1), 'dropupdate')
        # another error
        for m in re.finditer(r'\.error \.(\w+)', code):
            es = sorted(set(re.findall(r'\.error \.(\w+)', code)) - {m.group(1)})
            if es: add(m.start(1), m.end(1), random.Random(m.start()).choice(es), 'err')
        # swap the arguments of a two argument application of identifiers
        for m in re.finditer(r'(?<=\w )([a-z]\w*) ([a-z]\w*)(?=[ )\n,])', code):
            a, b = m.groups()
            if {a, b} & {'if', 'then', 'else', 'let', 'match', 'with', 'fun', 'some', 'none', 'have', 'by', 'from', 'def', 'not', 'decide', 'where', 'do', 'return'}: continue
            add(m.start(), m.end(), f'{b} {a}', 'swap')
        # replace some x by none
        for m in re.finditer(r'\(some [\w.]+\)|(?<=:= )some [\w.]+', code):
            add(m.start(), m.end(), 'none', 'none')
        # a field or a variable for another of the same type
        for g in GROUPS:
            for m in re.finditer(r'(?<![\w.])(?:' + '|'.join(re.escape(x) for x in g) + r')(?![\w.])' if g[0][0] != '.' else
                                 r'(?:' + '|'.join(re.escape(x) for x in g) + r')(?![\w])', code):
                if code[m.end():m.end() + 4] == ' := ': continue
                for x in g:
                    if x != m.group(0): add(m.start(), m.end(), x, 'subst')
        for m in re.finditer(r'\.(filter|takeWhile|dropWhile|sort|mergeSort|reverse|dedup|eraseDups)\b', code):
            pass
    return res

def key(e): return f"{e['file']}:{e['definition']}:{e['old']}→{e['new']}:{e['pos']}"

def build(work, tmo=1500):
    """first broken proof outside Model, or 'invalid', or None for a survivor"""
    p = subprocess.Popen('lake build', cwd=work, shell=True, stdout=subprocess.PIPE, stderr=subprocess.STDOUT, text=True, start_new_session=True)
    t0 = time.time(); hit = None
    for l in p.stdout:
        m = re.search(r'error: (Verif/\S+?\.lean):(\d+)', l)
        if m: hit = m.group(1) + ':' + m.group(2); break
        if time.time() - t0 > tmo: hit = 'timeout'; break
    try: os.killpg(p.pid, signal.SIGKILL)
    except ProcessLookupError: pass
    p.wait()
    return hit

def run(files):
    out = W / 'out.jsonl'
    done = {json.loads(l)['key'] for l in out.read_text().splitlines()} if out.exists() else set()
    es = [e for e in edits() if not files or e['file'] in files]
    random.Random(7).shuffle(es)
    first = {k for k in (W / 'first.txt').read_text().splitlines()} if (W / 'first.txt').exists() else set()
    es.sort(key=lambda e: key(e) not in first)
    work = W / f'work{os.getpid()}'
    subprocess.run(f'cp -a {W}/base {work}', shell=True, check=True)
    for e in es:
        if key(e) in done: continue
        f = work / 'Verif/Model' / e['file']; t = (W / 'base/Verif/Model' / e['file']).read_text()
        f.write_text(t[:e['pos']] + e['new'] + t[e['end']:])
        t0 = time.time()
        r = subprocess.run(f"lake build Verif.Model.{e['file'][:-5]}", cwd=work, shell=True, capture_output=True, text=True)
        hit = 'invalid' if r.returncode else build(work)
        if hit and hit.startswith('Verif/Model'): hit = 'invalid'
        with out.open('a') as g: g.write(json.dumps(dict(key=key(e), hit=hit, secs=round(time.time() - t0), **e), ensure_ascii=False) + '\n')
        subprocess.run(f"rm -rf {work} && cp -a {W}/base {work}", shell=True, check=True)

if __name__ == '__main__':
    c = sys.argv[1]
    if c == 'prepare': prepare()
    elif c == 'list':
        es = edits()
        from collections import Counter
        print(len(es), Counter(e['op'] for e in es), Counter(e['file'] for e in es))
    else: run(sys.argv[2:])
