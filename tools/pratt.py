"""Generate lean/Verif/Lemmas/OrderPrimes.lean: Pratt certificates for the orders of the P-256 and Curve25519 base points
and of the twist of Curve25519.

The prime factors above 1000 of every p - 1 that occurs are listed here; smaller ones are found by trial division.
"""
import os, re, sys
BIG = [17449, 38189, 9547, 3407, 1002328039319, 126241, 3969899, 104471, 2624747550333869278416773953, 16879, 1297,
       208150935158385979, 191039911, 155317, 3023, 1511, 622491383, 311245691, 187019741, 9350987, 1201,
       198211423230930754013084525763697, 58964693, 14741173, 409477, 34123, 3044861653679985063343, 30703, 82163, 41081,
       137849, 17231, 1723, 132667, 22111, 276602624281642239937218680557139826668747,
       19757330305831588566944191468367130476339, 172054593956031949258510691, 2851, 4434155615661930479,
       1257559732178653, 1224481, 2551, 531581, 3797, 1361, 213441916511, 292386187, 5879, 2939,
       117223, 2791, 6418733, 84457, 2220636239, 1110318119, 12527, 6263,
       27413359092552162435694767700453926735143482401279781, 4363, 104719073621178708975837602950775180438320278101,
       203852586375664218368381551393371968928013, 743104567, 1013266244677, 22561162540501040539, 727169, 5171003929967,
       2281, 28859, 3911, 8053, 3637, 11351]
N = 0xffffffff00000000ffffffffffffffffbce6faada7179e84f3b9cac2fc632551
L = 2**252 + 27742317777372353535851937790883648493

def factors(m):
    fs = []
    for q in list(range(2, 1000)) + BIG:
        while m % q == 0:
            fs.append(q); m //= q
    assert m == 1, m
    return sorted(fs)

root = os.path.join(os.path.dirname(__file__), '..', 'lean', 'Verif', 'Lemmas')
old = set(map(int, re.findall(r'theorem p(\d+) :', open(os.path.join(root, 'Primes.lean')).read())))
out, done = [], set(old)
def rec(p):
    if p in done: return
    done.add(p)
    if p < 1000:
        out.append(f'theorem p{p} : Nat.Prime {p} := by norm_num\n'); return
    fs = factors(p - 1)
    for q in sorted(set(fs)): rec(q)
    a = next(a for a in range(2, 1000) if pow(a, p-1, p) == 1 and all(pow(a, (p-1)//q, p) != 1 for q in set(fs)))
    mem = 'List.forall_mem_nil _'
    for q in reversed(fs): mem = f'List.forall_mem_cons.2 ⟨p{q}, {mem}⟩'
    out.append(f'theorem p{p} : Nat.Prime {p} :=\n  pratt {p} {a} {fs}\n    ({mem})\n    (by decide +kernel) (by decide +kernel) (by decide +kernel)\n')
T = 2**253 - 55484635554744707071703875581767296995
rec(N); rec(L); rec(T)
open(os.path.join(root, 'OrderPrimes.lean'), 'w').write('''import Verif.Lemmas.Primes

/-!
# Primality of the orders of the P-256 and Curve25519 base points

Pratt certificates, generated by `tools/pratt.py`.
-/

namespace Hacspec.Primes

''' + '\n'.join(out) + f'''
/-- The order of the P-256 base point. -/
theorem prime_p256_order :
    Nat.Prime 0x{N:x} := p{N}

/-- The order of the Curve25519 base point. -/
theorem prime_25519_order : Nat.Prime (2 ^ 252 + 27742317777372353535851937790883648493) :=
  p{L}

/-- The order of a point of the twist of Curve25519. -/
theorem prime_25519_twist : Nat.Prime (2 ^ 253 - 55484635554744707071703875581767296995) :=
  p{T}

end Hacspec.Primes
''')
