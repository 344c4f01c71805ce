#!/usr/bin/env python3
"""Generates lean/Verif/Model/LegendreData.lean from /repo/src/legendre/bogaert/data.rs.

Every decimal literal of the source is written as the integer literal*10^20 (exact; the script checks
that no literal has more than 20 decimals)."""
import re, sys
from decimal import Decimal, getcontext
getcontext().prec = 80
src = open('/repo/src/legendre/bogaert/data.rs').read().split('\n')
arrays = {}; lines = {}
tables = {}
for no, line in enumerate(src, 1):
    m = re.match(r'^(?:pub )?static (\w+): \[f64; (\d+)\] = \[(.*)\];', line)
    if m:
        name, n, body = m.groups()
        vals = [v.strip() for v in body.split(',') if v.strip()]
        assert len(vals) == int(n), name
        ints = []
        for v in vals:
            d = Decimal(v.replace('_', '')) * (Decimal(10) ** 20)
            assert d == d.to_integral_value(), (name, v)
            ints.append(int(d))
        arrays[name] = ints; lines[name] = no
        continue
    m = re.match(r'^(?:pub )?static (\w+): \[&\[f64\]; (\d+)\] = \[(.*)\];', line)
    if m:
        name, n, body = m.groups()
        els = [v.strip().lstrip('&') for v in body.split(',') if v.strip()]
        assert len(els) == int(n), (name, len(els), n)
        tables[name] = els; lines[name] = no
used = set()
out = []
w = out.append
w('/-!')
w('GENERATED by `/verif/tools/gen_legendre_data.py` from `/repo/src/legendre/bogaert/data.rs`; do not edit.')
w('Each `f64` literal `x` of the source appears as the exact integer `x * 10^20`.')
w('-/')
w('')
w('namespace GaussQuad.LegendreData')
w('')
def fmt(ints):
    return '[' + ', '.join(str(i) for i in ints) + ']'
for name, ints in arrays.items():
    w(f'/-- `{name}`, /repo/src/legendre/bogaert/data.rs l.{lines[name]} (literals times 10^20) -/')
    w(f'def {name} : List Int := {fmt(ints)}')
    w('')
for name, els in tables.items():
    w(f'/-- `{name}`, /repo/src/legendre/bogaert/data.rs l.{lines[name]} -/')
    w(f'def {name} : List (List Int) := [{", ".join(els)}]')
    w('')
w('end GaussQuad.LegendreData')
open('/verif/lean/Verif/Model/LegendreData.lean', 'w').write('\n'.join(out) + '\n')
print(len(arrays), list(tables), [len(t) for t in tables.values()])
