/-! # Specification: FIPS 202 (SHA-3 and SHAKE), bit by bit

Strings of bits are lists of `Bool`; a state array is a function of the coordinates `x`, `y`, `z`, whose arithmetic is
modulo 5, 5 and 64 (`Fin`). -/

namespace Hacspec.Spec.Fips202

/-- §3.1: state arrays for `b = 1600`, `w = 64`. -/
abbrev StateArray := Fin 5 → Fin 5 → Fin 64 → Bool

/-- §3.1.2: strings to state arrays, `A[x, y, z] = S[w (5 y + x) + z]`. -/
def toArray (S : List Bool) : StateArray := fun x y z => S.getD (64 * (5 * y.val + x.val) + z.val) false

/-- §3.1.3: state arrays to strings: the planes `y = 0 .. 4`, in each the lanes `x = 0 .. 4`, in each the bits
`z = 0 .. 63`. -/
def toString (A : StateArray) : List Bool :=
  (List.finRange 5).flatMap fun y => (List.finRange 5).flatMap fun x => (List.finRange 64).map fun z => A x y z

/-- §3.2.1 -/
def theta (A : StateArray) : StateArray :=
  let C : Fin 5 → Fin 64 → Bool := fun x z => A x 0 z ^^ A x 1 z ^^ A x 2 z ^^ A x 3 z ^^ A x 4 z
  let D : Fin 5 → Fin 64 → Bool := fun x z => C (x - 1) z ^^ C (x + 1) (z - 1)
  fun x y z => A x y z ^^ D x z

/-- §3.2.2: the coordinates visited by the loop of Algorithm 2. -/
def rhoWalk : Nat → Fin 5 × Fin 5
  | 0 => (1, 0)
  | t + 1 => ((rhoWalk t).2, 2 * (rhoWalk t).1 + 3 * (rhoWalk t).2)

/-- §3.2.2, Algorithm 2: step `t` assigns the lane of `rhoWalk t`. -/
def rho (A : StateArray) : StateArray :=
  (List.range 24).foldl
    (fun A' t => fun x y z =>
      if (x, y) = rhoWalk t then A x y (z - Fin.ofNat 64 ((t + 1) * (t + 2) / 2)) else A' x y z) A

/-- §3.2.3 -/
def pi (A : StateArray) : StateArray := fun x y z => A (x + 3 * y) x z

/-- §3.2.4 -/
def chi (A : StateArray) : StateArray := fun x y z => A x y z ^^ ((A (x + 1) y z ^^ true) && A (x + 2) y z)

/-- §3.2.5, Algorithm 5: one step of the shift register. -/
def rcStep (R : List Bool) : List Bool :=
  let R := false :: R
  let b := R.getD 8 false
  let R := R.set 0 (R.getD 0 false ^^ b)
  let R := R.set 4 (R.getD 4 false ^^ b)
  let R := R.set 5 (R.getD 5 false ^^ b)
  let R := R.set 6 (R.getD 6 false ^^ b)
  R.take 8

/-- `n` steps of the shift register. -/
def rcState : Nat → List Bool
  | 0 => [true, false, false, false, false, false, false, false]
  | n + 1 => rcStep (rcState n)

/-- §3.2.5, Algorithm 5: `rc(t)`. -/
def rc (t : Nat) : Bool := (rcState (t % 255)).getD 0 false

/-- §3.2.5, Algorithm 6: the round constant; `RC[2^j - 1] = rc(j + 7 i_r)` for `j = 0 .. 6`, other bits are 0. -/
def RC (ir : Nat) : List Bool :=
  (List.range 7).foldl (fun RC j => RC.set (2 ^ j - 1) (rc (j + 7 * ir))) (List.replicate 64 false)

/-- §3.2.5 -/
def iota (ir : Nat) (A : StateArray) : StateArray :=
  fun x y z => if x = 0 ∧ y = 0 then A x y z ^^ (RC ir).getD z.val false else A x y z

/-- §3.3 `Rnd`. -/
def Rnd (A : StateArray) (ir : Nat) : StateArray := iota ir (chi (pi (rho (theta A))))

/-- §3.3, §3.4 `KECCAK-f[1600] = KECCAK-p[1600, 24]` on strings. -/
def keccakf (S : List Bool) : List Bool := toString ((List.range 24).foldl Rnd (toArray S))

/-- §5.1 `pad10*1`: `j = (-m - 2) mod x`. -/
def pad101 (x m : Nat) : List Bool := true :: (List.replicate ((x - (m + 2) % x) % x) false ++ [true])

/-- Consecutive blocks of `r` bits. -/
def blocks (r : Nat) (P : List Bool) : List (List Bool) :=
  (List.range (P.length / r)).map fun i => (P.drop (r * i)).take r

/-- §4, steps 1-6 of Algorithm 8. -/
def absorb (r : Nat) (N : List Bool) : List Bool :=
  (blocks r (N ++ pad101 r N.length)).foldl
    (fun S P => keccakf (List.zipWith (· ^^ ·) S (P ++ List.replicate (1600 - r) false))) (List.replicate 1600 false)

/-- §4, steps 7-10 of Algorithm 8: `n` blocks of `r` bits of output. -/
def output (r : Nat) : Nat → List Bool → List Bool
  | 0, _ => []
  | n + 1, S => S.take r ++ output r n (keccakf S)

/-- §4, Algorithm 8: `SPONGE[KECCAK-f[1600], pad10*1, r](N, d)`. -/
def sponge (r : Nat) (N : List Bool) (d : Nat) : List Bool := (output r ((d + r - 1) / r) (absorb r N)).take d

/-- §5.2 `KECCAK[c](N, d)`. -/
def keccak (c : Nat) (N : List Bool) (d : Nat) : List Bool := sponge (1600 - c) N d

/-- §6.1 `SHA3-d(M) = KECCAK[2 d](M || 01, d)`. -/
def sha3 (d : Nat) (M : List Bool) : List Bool := keccak (2 * d) (M ++ [false, true]) d

/-- §6.2 `SHAKE128(M, d) = KECCAK[256](M || 1111, d)`. -/
def shake128 (M : List Bool) (d : Nat) : List Bool := keccak 256 (M ++ [true, true, true, true]) d

/-- §6.2 `SHAKE256(M, d) = KECCAK[512](M || 1111, d)`. -/
def shake256 (M : List Bool) (d : Nat) : List Bool := keccak 512 (M ++ [true, true, true, true]) d

/-- §B.1: bytes as bits, least significant bit first. -/
def bits (b : List (BitVec 8)) : List Bool := b.flatMap fun x => (List.range 8).map fun i => x.getLsbD i

/-- 25 lanes as a string of 1600 bits: lane `(x, y)` is word `5 y + x`, bit `z` is the bit of weight `2^z`. -/
def laneBits (s : List (BitVec 64)) : List Bool := s.flatMap fun w => (List.range 64).map fun z => w.getLsbD z

end Hacspec.Spec.Fips202
