#!/usr/bin/env python3
"""Generates lean/Verif/Proofs/LegendreRootsData.lean: positive roots of the Legendre polynomials P_n, 2 <= n <= 100,
rounded to integers over 10^30.  Only hints: the Lean proof checks a sign change around every one of them."""
import os
Q = 10 ** 45


def legendre(n, x):
    a, b = Q, x
    for j in range(1, n):
        a, b = b, ((2 * j + 1) * x * b // Q - j * a) // (j + 1)
    return b, a


def roots(n):
    import math
    out = []
    for k in range(1, n // 2 + 1):
        x = int(math.cos(math.pi * (k - 0.25) / (n + 0.5)) * 10 ** 15) * Q // 10 ** 15
        for _ in range(8):
            p, pm = legendre(n, x)
            x -= p * (x * x // Q - Q) // (n * (x * p // Q - pm))
        out.append((x + 10 ** 15 // 2) // 10 ** 15)
    return out[::-1]  # ascending: the root nearest to 0 first, as in the tables of the crate


def main():
    here = os.path.dirname(os.path.abspath(__file__))
    path = os.path.join(here, '..', 'lean', 'Verif', 'Proofs', 'LegendreRootsData.lean')
    with open(path, 'w') as f:
        f.write('/-!\nGENERATED by `/verif/tools/gen_legendre_roots.py`; do not edit.\n'
                'Positive roots of the Legendre polynomials, times `10^30`, rounded.  Unverified hints: every entry is checked in\n'
                '`Verif.Proofs.LegendreCheck`.\n-/\n\nnamespace GaussQuad.LegendreRoots\n\n')
        for name, n0 in (('EVEN', 2), ('ODD', 3)):
            f.write('/-- row `i` belongs to degree `2 * i + %d` -/\ndef %s_ROOTS : List (List Nat) := [\n' % (n0, name))
            rows = []
            for n in range(n0, 101, 2):
                rows.append('  [' + ', '.join(str(r) for r in roots(n)) + ']')
            f.write(',\n'.join(rows) + ']\n\n')
        f.write('end GaussQuad.LegendreRoots\n')


main()
