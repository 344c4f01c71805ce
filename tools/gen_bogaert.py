#!/usr/bin/env python3
"""Prints the Lean transcription of the arithmetic expressions of
/repo/src/legendre/bogaert/mod.rs (pure textual translation of operators and literals)."""
import re
src = open('/repo/src/legendre/bogaert/mod.rs').read()
def tr(e):
    # literals (optionally with a sign directly attached)
    toks = re.findall(r'\d[\d_]*\.?[\d_]*(?:e-?\d+)?|[A-Za-z_]\w*|[-+*/()]', e)
    out = []; prev = None
    i = 0
    while i < len(toks):
        t = toks[i]
        if re.match(r'\d', t):
            out.append(f'lit {t.replace("_","")}' if False else f'(lit {t.replace("_","")})')
        elif t == '-' and (prev is None or prev in '(+-*/'):
            nxt = toks[i+1]; assert re.match(r'\d', nxt)
            out.append(f'(lit (-{nxt.replace("_","")}))'); i += 1; t = nxt
        elif t in '+-*/':
            out.append(f' {t}ᶠ ')
        elif t in '()':
            out.append(t)
        else:
            out.append(t)
        prev = t; i += 1
    return ''.join(out)
for m in re.finditer(r'let (\w+)(?:: f64)? = (.*?);', src):
    print(m.group(1), ':=', tr(m.group(2)))
for l in src.split('\n'):
    if l.strip().startswith('z + r') or l.strip().startswith('x * (0.2'):
        print('EXPR', tr(l.strip()))
