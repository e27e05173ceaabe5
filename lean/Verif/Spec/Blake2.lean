import Verif.Spec.Bytes

/-! # Specification: BLAKE2b (RFC 7693) without key, 64-byte digest -/

namespace Hacspec.Spec.Blake2

/-- RFC 7693 §2.6: the initialization vector; `floor(2^64 frac(sqrt(p)))` for the first eight primes (checked in C46). -/
def iv : List (BitVec 64) := [
  0x6A09E667F3BCC908, 0xBB67AE8584CAA73B, 0x3C6EF372FE94F82B, 0xA54FF53A5F1D36F1,
  0x510E527FADE682D1, 0x9B05688C2B3E6C1F, 0x1F83D9ABFB41BD6B, 0x5BE0CD19137E2179]

/-- §2.7: the ten message schedules. -/
def sigma : List (List Nat) := [
  [ 0,  1,  2,  3,  4,  5,  6,  7,  8,  9, 10, 11, 12, 13, 14, 15],
  [14, 10,  4,  8,  9, 15, 13,  6,  1, 12,  0,  2, 11,  7,  5,  3],
  [11,  8, 12,  0,  5,  2, 15, 13, 10, 14,  3,  6,  7,  1,  9,  4],
  [ 7,  9,  3,  1, 13, 12, 11, 14,  2,  6,  5, 10,  4,  0, 15,  8],
  [ 9,  0,  5,  7,  2,  4, 10, 15, 14,  1, 11, 12,  6,  8,  3, 13],
  [ 2, 12,  6, 10,  0, 11,  8,  3,  4, 13,  7,  5, 15, 14,  1,  9],
  [12,  5,  1, 15, 14, 13,  4, 10,  0,  7,  6,  3,  9,  2,  8, 11],
  [13, 11,  7, 14, 12,  1,  3,  9,  5,  0, 15,  4,  8,  6,  2, 10],
  [ 6, 15, 14,  9, 11,  3,  0,  8, 12,  2, 13,  7,  1,  4, 10,  5],
  [10,  2,  8,  4,  7,  6,  1,  5, 15, 11,  9, 14,  3, 12, 13,  0]]

/-- §3.1: the mixing function on four words, rotations 32, 24, 16, 63. -/
def G (a b c d x y : BitVec 64) : BitVec 64 × BitVec 64 × BitVec 64 × BitVec 64 :=
  let a := a + b + x; let d := (d ^^^ a).rotateRight 32
  let c := c + d; let b := (b ^^^ c).rotateRight 24
  let a := a + b + y; let d := (d ^^^ a).rotateRight 16
  let c := c + d; let b := (b ^^^ c).rotateRight 63
  (a, b, c, d)

/-- §3.1: the mixing function on the words of `v` with the given indices. -/
def mix (a b c d : Nat) (x y : BitVec 64) (v : List (BitVec 64)) : List (BitVec 64) :=
  let r := G (v.getD a 0) (v.getD b 0) (v.getD c 0) (v.getD d 0) x y
  (((v.set a r.1).set b r.2.1).set c r.2.2.1).set d r.2.2.2

/-- §3.2: round `i` uses the schedule `SIGMA[i mod 10]`: four columns, then four diagonals. -/
def round (m : List (BitVec 64)) (i : Nat) (v : List (BitVec 64)) : List (BitVec 64) :=
  let s := fun k => m.getD ((sigma.getD (i % 10) []).getD k 0) 0
  let v := mix 0 4 8 12 (s 0) (s 1) v
  let v := mix 1 5 9 13 (s 2) (s 3) v
  let v := mix 2 6 10 14 (s 4) (s 5) v
  let v := mix 3 7 11 15 (s 6) (s 7) v
  let v := mix 0 5 10 15 (s 8) (s 9) v
  let v := mix 1 6 11 12 (s 10) (s 11) v
  let v := mix 2 7 8 13 (s 12) (s 13) v
  mix 3 4 9 14 (s 14) (s 15) v

/-- The first `n` rounds. -/
def rounds (m : List (BitVec 64)) : Nat → List (BitVec 64) → List (BitVec 64)
  | 0, v => v
  | n + 1, v => round m n (rounds m n v)

/-- §3.2: the compression function with `r` rounds (12 for BLAKE2b): state `h`, message block, offset counter `t`
(split into low and high word), final block flag. -/
def F (r : Nat) (h m : List (BitVec 64)) (t : Nat) (f : Bool) : List (BitVec 64) :=
  let v := h ++ iv
  let v := v.set 12 (v.getD 12 0 ^^^ BitVec.ofNat 64 t)
  let v := v.set 13 (v.getD 13 0 ^^^ BitVec.ofNat 64 (t / 2 ^ 64))
  let v := if f then v.set 14 (v.getD 14 0 ^^^ 0xFFFFFFFFFFFFFFFF#64) else v
  let v := rounds m r v
  (List.range 8).map fun i => h.getD i 0 ^^^ v.getD i 0 ^^^ v.getD (i + 8) 0

/-- §3.3: the data as blocks of 128 bytes, the last one padded with zeros. -/
def blockWords (d : List (BitVec 8)) (i : Nat) : List (BitVec 64) :=
  words64le (block 128 d i ++ List.replicate (128 - (block 128 d i).length) 0)

/-- §3.3: the state after the first `n` blocks, none of which is the last. -/
def chain (d : List (BitVec 8)) : Nat → List (BitVec 64)
  | 0 => iv.set 0 (iv.getD 0 0 ^^^ 0x01010000#64 ^^^ 64#64)
  | i + 1 => F 12 (chain d i) (blockWords d i) ((i + 1) * 128) false

/-- §3.3: unkeyed BLAKE2b with a digest of 64 bytes; there is always at least one block. -/
def blake2b (d : List (BitVec 8)) : List (BitVec 8) :=
  let dd := if d.length = 0 then 1 else (d.length + 127) / 128
  (F 12 (chain d (dd - 1)) (blockWords d (dd - 1)) d.length true).flatMap bytesLe64

end Hacspec.Spec.Blake2
