#!/usr/bin/env python3
"""Seed one wrong program into a scratch copy of the model and see which theorems notice.

usage: mutate.py <mutations.json> [id ...]

A mutation is {"id", "file", "definition", "edit", "old", "new", "claim"}.  The scratch copy is
/tmp/mut/lean.  A declaration whose proof fails is replaced by `sorry` and the build goes on, so
that all modules are seen; a theorem counts as failed when it depends on `sorryAx` in the end.
Results go to /tmp/mut/results.jsonl.
"""
import json, os, re, shutil, subprocess, sys

SRC = os.environ.get('MUT_SRC', '/verif/lean')
SCR = '/tmp/mut/lean'
RES = '/tmp/mut/results.jsonl'
DECL = re.compile(r'^(?:@\[[^\]]*\]\s*)?(?:private |protected |noncomputable |open \w+(?:\.\w+)* in )*'
                  r'(theorem|lemma|def|example|instance|abbrev|structure|inductive)\b\s*([^\s:({\[]*)')
BREAK = re.compile(r'^(/--|/-!|end\b|namespace\b|section\b|open\b|variable\b|set_option\b|@\[)')


def decls(lines):
    """(start, stop, kind, name) of the declarations, without doc strings."""
    out = []
    starts = [i for i, l in enumerate(lines) if DECL.match(l) or BREAK.match(l)]
    for a, b in zip(starts, starts[1:] + [len(lines)]):
        m = DECL.match(lines[a])
        if m:
            out.append((a, b, m.group(1), m.group(2)))
    return out


def statement(text):
    depth = 0
    i = 0
    while i < len(text):
        c = text[i]
        if c in '([{⟨':
            depth += 1
        elif c in ')]}⟩':
            depth -= 1
        elif depth == 0 and text.startswith(':=', i):
            # a `let` inside the statement
            head = text[:i].rstrip().split('\n')[-1]
            if not re.search(r'\blet\b[^;]*$', head):
                return text[:i]
        elif depth == 0 and text.startswith('\n  | ', i):
            return text[:i]
        i += 1
    return None


def cripple(path, errlines, state):
    full = os.path.join(SCR, path)
    lines = open(full).read().split('\n')
    ds = decls(lines)
    todo = {}
    for e in errlines:
        for a, b, kind, name in ds:
            if a <= e - 1 < b:
                todo[a] = (a, b, kind, name)
                break
        else:
            state['odd'].append(f'{path}:{e}')
    for a in sorted(todo, reverse=True):
        a, b, kind, name = todo[a]
        key = f'{path}:{name}'
        text = '\n'.join(lines[a:b])
        if kind == 'example':
            state['examples'] += 1
            new = ''
        elif kind in ('theorem', 'lemma'):
            if key in state['sorried']:
                state['dropped'].append(name)
                new = ''
            else:
                st = statement(text)
                if st is None:
                    state['odd'].append(key)
                    new = ''
                else:
                    state['sorried'].add(key)
                    new = st + ':= by\n  sorry\n'
        else:
            state['odd'].append(f'{kind} {key}')
            new = ''
        pre = lines[:a]
        if new == '':
            # drop a doc string in front
            k = len(pre)
            while k > 0 and pre[k - 1].strip() == '':
                k -= 1
            if k > 0 and pre[k - 1].rstrip().endswith('-/'):
                j = k - 1
                while j >= 0 and not pre[j].startswith('/-'):
                    j -= 1
                if pre[j].startswith('/--'):
                    pre = pre[:j]
        lines = pre + new.split('\n') + lines[b:]
    open(full, 'w').write('\n'.join(lines))


def build():
    p = subprocess.run(['lake', 'build'], cwd=SCR, capture_output=True, text=True)
    out = p.stdout + p.stderr
    errs = {}
    for m in re.finditer(r'^error: (Verif/\S+\.lean):(\d+):\d+:', out, re.M):
        errs.setdefault(m.group(1), set()).add(int(m.group(2)))
    return p.returncode, errs, out


def names():
    out = []
    for f in sorted(os.listdir(f'{SRC}/Verif/Props')):
        for m in re.finditer(r'^theorem (C\d+_\S+)', open(f'{SRC}/Verif/Props/{f}').read(), re.M):
            out.append(m.group(1))
    return out


def check(dropped):
    ns = [n for n in names() if n not in dropped]
    src = 'import Verif\nimport Lean\nopen Lean\n\nrun_cmd do\n'
    src += '  for n in [' + ', '.join('`Verif.Props.' + n for n in ns) + '] do\n'
    src += '    let ax ← collectAxioms n\n'
    src += '    if ax.contains ``sorryAx then IO.println s!"BAD {n}"\n'
    src += '  IO.println "DONE"\n'
    open(f'{SCR}/Check.lean', 'w').write(src)
    p = subprocess.run(['lake', 'env', 'lean', 'Check.lean'], cwd=SCR, capture_output=True, text=True)
    out = p.stdout + p.stderr
    assert 'DONE' in out, out[:2000]
    return [n.split('.')[-1] for n in re.findall(r'BAD (\S+)', out)]


def run(m):
    for d in ('Verif', '.lake'):
        shutil.rmtree(f'{SCR}/{d}', ignore_errors=True)
    os.makedirs(SCR, exist_ok=True)
    subprocess.run(f'cp -a {SRC}/. {SCR}/', shell=True, check=True)
    f = f'{SCR}/Verif/{m["file"]}'
    s = open(f).read()
    assert s.count(m['old']) >= 1, ('not found', m['id'])
    nth = m.get('nth')
    if nth is None:
        assert s.count(m['old']) == 1, ('ambiguous', m['id'], s.count(m['old']))
        s = s.replace(m['old'], m['new'])
    else:
        parts = s.split(m['old'])
        s = m['old'].join(parts[:nth + 1]) + m['new'] + m['old'].join(parts[nth + 1:])
    open(f, 'w').write(s)
    state = {'sorried': set(), 'dropped': [], 'examples': 0, 'odd': []}
    seen = []
    for it in range(60):
        rc, errs, out = build()
        if len(seen) > 2 and seen[-1] == seen[-2] == errs:
            return {'id': m['id'], 'error': f'stuck at {errs}: ' + out[-3000:]}
        seen.append(errs)
        if rc == 0:
            break
        if not errs:
            return {'id': m['id'], 'error': out[-3000:]}
        bad = [p for p in errs if p == 'Verif/' + m['file']]
        if bad and it == 0 and '/Model/' in bad[0]:
            return {'id': m['id'], 'error': 'the edited model does not compile: ' + out[:1500]}
        for p, ls in errs.items():
            cripple(p, ls, state)
    else:
        return {'id': m['id'], 'error': 'no fixed point'}
    failed = sorted(set(check(state['dropped']) + [n for n in state['dropped'] if re.match(r'C\d+_', n)]))
    direct = sorted(k.split(':')[1] for k in state['sorried'])
    return {'id': m['id'], 'definition': m['definition'], 'edit': m['edit'], 'claim': m['claim'],
            'failed': failed, 'direct': direct, 'examples': state['examples'],
            'dropped': state['dropped'], 'odd': state['odd'], 'iterations': it}


def main():
    ms = json.load(open(sys.argv[1]))
    want = set(sys.argv[2:])
    done = set()
    if os.path.exists(RES):
        done = {json.loads(l)['id'] for l in open(RES)}
    for m in ms:
        if (want and m['id'] not in want) or (not want and m['id'] in done):
            continue
        try:
            r = run(m)
        except AssertionError as e:
            r = {'id': m['id'], 'error': repr(e)}
        with open(RES, 'a') as g:
            g.write(json.dumps(r, ensure_ascii=False) + '\n')
        print(json.dumps(r, ensure_ascii=False)[:600], flush=True)


main()
