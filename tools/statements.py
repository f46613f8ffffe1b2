"""Print the statements (doc string and signature) of the theorems Cnn_* of the given properties, and the
definitions Spec.* of their files."""
import re, sys, glob, os
root = os.path.dirname(os.path.dirname(os.path.abspath(__file__)))
want = sys.argv[1:]
for f in sorted(glob.glob(f'{root}/lean/Verif/Props/*.lean')):
    t = open(f).read()
    hits = [m for m in re.finditer(r'(?:/--(?:(?!-/).)*-/\s*)?^theorem (C\d+)_\S+', t, re.M | re.S) if m.group(1) in want]
    if not hits:
        continue
    print('=====', os.path.basename(f))
    for m in re.finditer(r'(?:/--(?:(?!-/).)*-/\n)?^(?:noncomputable )?(?:def|structure|inductive) Spec\.\S+.*?\n\n', t, re.M | re.S):
        print(m.group(0).rstrip())
    for m in hits:
        s = t[m.start():]
        e = re.search(r':=\s*(by\b|\n|\S)', s[m.end() - m.start():])
        depth = 0
        i = m.end() - m.start()
        while i < len(s):
            c = s[i]
            if c in '([{⟨': depth += 1
            elif c in ')]}⟩': depth -= 1
            elif depth == 0 and s.startswith(':=', i) and not re.search(r'\blet\b[^;\n]*$', s[:i]): break
            i += 1
        print(s[:i].rstrip(), '\n')
