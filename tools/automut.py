#!/usr/bin/env python3
"""Generate operator-level mutants of the definitions in Model/: automut.py SEED PER_DEF OUT.json"""
import re, glob, json, random, sys
random.seed(int(sys.argv[1])); per = int(sys.argv[2])
OPS = [(r' < ', ' ≤ '), (r' ≤ ', ' < '), (r' \+ 1\b', ''), (r' - 1\b', ''), (r' \+ ', ' - '), (r' - ', ' + '), (r' \* ', ' + '),
       (r'\btrue\b', 'false'), (r'\bfalse\b', 'true'), (r'&&', '||'), (r'\|\|', '&&'), (r' ∧ ', ' ∨ '), (r' ∨ ', ' ∧ '),
       (r'\bmax\b', 'min'), (r'\bmin\b', 'max'), (r'\bi j\b', 'j i'), (r'\bj k\b', 'k j'), (r'\bi k\b', 'k i'), (r'\bk j\b', 'j k'),
       (r'\b0\b', '1'), (r'\b1\b', '2'), (r'\b2\b', '3'), (r'\b3\b', '2'), (r'\.reverse\b', ''), (r' ≠ ', ' = '),
       (r'(?<=if )(.*?) = ', r'\1 ≠ '), (r'\.1\b', '.2'), (r'\.2\b', '.1'), (r'\bcos\b', 'sin'), (r'\bsin\b', 'cos'),
       (r' / ', ' * '), (r'\bfst\b', 'snd'), (r'\bsome\b', 'some'), (r'\(-', '('), (r'\bn\b', 'm'), (r'\bm\b', 'n')]
muts = []
for f in sorted(glob.glob('/verif/lean/Verif/Model/*.lean')):
    s = open(f).read()
    for m in re.finditer(r'^(?:@\[[^\]]*\]\s*)?(?:noncomputable |private |protected )*def (\S+).*?(?=\n\n|\Z)', s, re.M | re.S):
        text = m.group(0)
        k = text.find(':=')
        k2 = text.find('\n  | ')
        if k < 0 or (0 <= k2 < k): k = k2
        if k < 0: continue
        head, body = text[:k+2], text[k+2:]
        cands = []
        for pat, rep in OPS:
            for mm in re.finditer(pat, body):
                # not inside comments
                if '/-' in body[:mm.start()].split('-/')[-1] or '--' in body[:mm.start()].split('\n')[-1]: continue
                nb = body[:mm.start()] + mm.expand(rep) + body[mm.end():]
                if nb != body: cands.append((head + nb, f'{mm.group(0)!r} -> {mm.expand(rep)!r} at "...{body[max(0,mm.start()-30):mm.end()+30]}..."'))
        random.shuffle(cands)
        for new, desc in cands[:per]:
            if s.count(text) == 1:
                muts.append({'def': m.group(1), 'file': 'Model/' + f.split('/')[-1], 'old': text, 'new': new, 'edit': desc, 'claim': 'operator mutant'})
random.shuffle(muts)
json.dump(muts, open(sys.argv[3], 'w'))
print(len(muts))
