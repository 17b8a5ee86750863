"""Copy a Lean source tree, dropping every proof: theorem bodies become `sorry`, examples go away.

Used for the seeded-bug tests only: on a copy with an edited model, the statements
can then be loaded although their proofs no longer go through, and a short script
derives `False` from the one that must have become wrong.
"""
import re, sys, pathlib, shutil

TOP = re.compile(r'^(theorem|lemma|private theorem|@\[simp\] theorem|@\[.*?\] theorem|example|def|abbrev|instance|structure|inductive|'
                 r'namespace|end\b|open|variable|section|set_option|mutual|/--|/-!|private|protected|@\[|import|noncomputable|attribute|local|deriving instance|#)')

def split(text):
    lines = text.split('\n')
    chunks, cur, incomment = [], [], False
    for ln in lines:
        if not incomment and ln and not ln[0].isspace() and TOP.match(ln):
            chunks.append(cur); cur = []
        cur.append(ln)
        opens = ln.count('/-'); closes = ln.count('-/')
        if opens > closes: incomment = True
        elif closes > opens: incomment = False
    chunks.append(cur)
    return ['\n'.join(c) for c in chunks if c]

def body_at(s):
    """index of the `:=` that ends the statement"""
    depth, i = 0, 0
    while i < len(s):
        c = s[i]
        if c in '([{⟨': depth += 1
        elif c in ')]}⟩': depth -= 1
        elif depth == 0 and s.startswith(':=', i):
            line = s[s.rfind('\n', 0, i) + 1:i]
            if not re.search(r'\blet\b|\bhave\b', line): return i
        i += 1
    return None

def skeleton(text):
    out = []
    for c in split(text):
        if re.match(r'(@\[[^\]]*\]\s*)?(private |protected )?(theorem|lemma)\b', c):
            i = body_at(c)
            for m in (re.search(r'\n  \| ', c), re.search(r' where\n', c)):  # other forms of proof
                if m and (i is None or m.start() < i): i = m.start()
            out.append(re.sub(r'^@\[[^\]]*\]\s*', '', c[:i]).rstrip() + ' := by sorry\n')
        elif re.match(r'example\b', c): continue
        elif re.match(r'set_option .* in\s*$', c): out.append(c)
        else: out.append(c)
    t = '\n'.join(out)
    # drop options and comments left without a declaration
    t = re.sub(r'(set_option [^\n]* in\n)(?=\s*(end|namespace|/-|set_option|theorem|open|def|$))', '', t)
    prev = None
    while prev != t:
        prev = t
        t = re.sub(r'/--(?:(?!-/).)*-/\s*(?=(/--|/-!|end\b|namespace|section|open|$|variable|mutual))', '', t, flags=re.S)
        t = re.sub(r'(set_option [^\n]* in\n)(?=\s*(end|namespace|/-|set_option|theorem|open|def|$))', '', t)
    return t

if __name__ == '__main__':
    src, dst = map(pathlib.Path, sys.argv[1:3])
    if dst.exists(): shutil.rmtree(dst)
    for p in src.rglob('*.lean'):
        q = dst / p.relative_to(src); q.parent.mkdir(parents=True, exist_ok=True)
        rel = p.relative_to(src).parts[0]
        q.write_text(skeleton(p.read_text()) if rel in ('Spec', 'Lemmas', 'Props') else p.read_text())
