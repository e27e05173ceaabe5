import Verif.Spec.Bytes

/-! # Specification: SHA-256 (FIPS 180-4), for messages of whole bytes -/

namespace Hacspec.Spec.Sha256

/-- Trial division. -/
def isPrime (n : Nat) : Bool := 2 ≤ n && (List.range n).all fun d => d < 2 || n % d != 0

/-- The first 64 prime numbers. -/
def primes : List Nat := (List.range 312).filter isPrime

/-- The largest `r < 2^b` with `r^k ≤ n`. -/
def iroot (k n : Nat) : Nat → Nat
  | 0 => 0
  | b + 1 => go b 0
where
  /-- Decides the bits from `b` down to 0. -/
  go : Nat → Nat → Nat
  | 0, r => if (r + 1) ^ k ≤ n then r + 1 else r
  | b + 1, r => go b (if (r + 2 ^ (b + 1)) ^ k ≤ n then r + 2 ^ (b + 1) else r)

/-- FIPS 180-4 §4.2.2: the first 32 bits of the fractional parts of the cube roots of the first 64 primes. -/
def K : List (BitVec 32) := primes.map fun p => BitVec.ofNat 32 (iroot 3 (p * 2 ^ 96) 36)

/-- FIPS 180-4 §5.3.3: the first 32 bits of the fractional parts of the square roots of the first 8 primes. -/
def H0 : List (BitVec 32) := (primes.take 8).map fun p => BitVec.ofNat 32 (iroot 2 (p * 2 ^ 64) 36)

/-- §4.1.2 -/
def Ch (x y z : BitVec 32) : BitVec 32 := (x &&& y) ^^^ (~~~x &&& z)
def Maj (x y z : BitVec 32) : BitVec 32 := (x &&& y) ^^^ (x &&& z) ^^^ (y &&& z)
def Sigma0 (x : BitVec 32) : BitVec 32 := x.rotateRight 2 ^^^ x.rotateRight 13 ^^^ x.rotateRight 22
def Sigma1 (x : BitVec 32) : BitVec 32 := x.rotateRight 6 ^^^ x.rotateRight 11 ^^^ x.rotateRight 25
def sigma0 (x : BitVec 32) : BitVec 32 := x.rotateRight 7 ^^^ x.rotateRight 18 ^^^ (x >>> 3)
def sigma1 (x : BitVec 32) : BitVec 32 := x.rotateRight 17 ^^^ x.rotateRight 19 ^^^ (x >>> 10)

/-- The next word `W_t`, `t = w.length ≥ 16`, of the message schedule (§6.2.2 step 1). -/
def nextW (w : List (BitVec 32)) : BitVec 32 :=
  sigma1 (w.getD (w.length - 2) 0) + w.getD (w.length - 7) 0 + sigma0 (w.getD (w.length - 15) 0)
    + w.getD (w.length - 16) 0

/-- Appends `n` words. -/
def extendW : Nat → List (BitVec 32) → List (BitVec 32)
  | 0, w => w
  | n + 1, w => extendW n (w ++ [nextW w])

/-- The message schedule `W_0 … W_63` of a block of 16 words. -/
def schedule (m : List (BitVec 32)) : List (BitVec 32) := extendW 48 m

/-- Working variables. -/
structure Vars where
  a : BitVec 32
  b : BitVec 32
  c : BitVec 32
  d : BitVec 32
  e : BitVec 32
  f : BitVec 32
  g : BitVec 32
  h : BitVec 32

/-- §6.2.2 step 3. -/
def round (k w : BitVec 32) (s : Vars) : Vars :=
  let t1 := s.h + Sigma1 s.e + Ch s.e s.f s.g + k + w
  let t2 := Sigma0 s.a + Maj s.a s.b s.c
  { a := t1 + t2, b := s.a, c := s.b, d := s.c, e := s.d + t1, f := s.e, g := s.f, h := s.g }

/-- §6.2.2: one block of 64 bytes. -/
def compress (s : Vars) (m : List (BitVec 8)) : Vars :=
  let w := schedule (words32be m)
  let r := (List.range 64).foldl (fun v t => round (K.getD t 0) (w.getD t 0) v) s
  { a := r.a + s.a, b := r.b + s.b, c := r.c + s.c, d := r.d + s.d,
    e := r.e + s.e, f := r.f + s.f, g := r.g + s.g, h := r.h + s.h }

/-- §5.1.1: append the bit 1, the least number of zero bits that makes the length 448 modulo 512, and the length in
bits as a 64-bit number. -/
def pad (m : List (BitVec 8)) : List (BitVec 8) :=
  m ++ [0x80] ++ List.replicate ((119 - m.length % 64) % 64) 0 ++ bytesBe64 (BitVec.ofNat 64 (8 * m.length))

def initial : Vars :=
  { a := H0.getD 0 0, b := H0.getD 1 0, c := H0.getD 2 0, d := H0.getD 3 0,
    e := H0.getD 4 0, f := H0.getD 5 0, g := H0.getD 6 0, h := H0.getD 7 0 }

/-- All the blocks of a string whose length is a multiple of 64. -/
def iterate (s : Vars) (m : List (BitVec 8)) : Vars :=
  (List.range (m.length / 64)).foldl (fun s i => compress s (block 64 m i)) s

def digest (s : Vars) : List (BitVec 8) :=
  bytesBe32 s.a ++ bytesBe32 s.b ++ bytesBe32 s.c ++ bytesBe32 s.d ++
  bytesBe32 s.e ++ bytesBe32 s.f ++ bytesBe32 s.g ++ bytesBe32 s.h

/-- SHA-256 of a message of fewer than `2^61` bytes. -/
def sha256 (m : List (BitVec 8)) : List (BitVec 8) := digest (iterate initial (pad m))

end Hacspec.Spec.Sha256
