import Verif.Spec.Bytes

/-! # Specification: AES (FIPS 197) and counter mode (SP 800-38A/D) -/

namespace Hacspec.Spec.Aes

/-- The product of two bytes as polynomials over GF(2) (carry-less multiplication). -/
def clmul (a b : BitVec 8) : BitVec 16 :=
  (List.range 8).foldl (fun r i => if b.getLsbD i then r ^^^ (a.setWidth 16 <<< i) else r) 0

/-- The remainder modulo `x^8 + x^4 + x^3 + x + 1`: the terms `x^14, ..., x^8` are cancelled in turn. -/
def reduce (p : BitVec 16) : BitVec 8 :=
  ((List.range 7).foldl (fun r k => if r.getLsbD (14 - k) then r ^^^ (0x11b#16 <<< (6 - k)) else r) p).setWidth 8

/-- FIPS 197 §4.2: multiplication in GF(2^8). -/
def gmul (a b : BitVec 8) : BitVec 8 := reduce (clmul a b)

/-- `b` is the multiplicative inverse of `a`, with `0` for `0`. -/
def IsInv (a b : BitVec 8) : Prop := if a = 0 then b = 0 else gmul a b = 1

instance (a b : BitVec 8) : Decidable (IsInv a b) := by unfold IsInv; infer_instance

/-- FIPS 197 §5.1.1 (5.1): the affine map, bit by bit, `c = {63}`. -/
def affine (b : BitVec 8) : BitVec 8 :=
  (List.range 8).foldl (fun r i =>
    if (((b.getLsbD i ^^ b.getLsbD ((i + 4) % 8)) ^^ b.getLsbD ((i + 5) % 8)) ^^ b.getLsbD ((i + 6) % 8)) ^^
        b.getLsbD ((i + 7) % 8) ^^ (0x63#8).getLsbD i
    then r ||| (1#8 <<< i) else r) 0

/-- `a^n` in GF(2^8). -/
def gpow (a : BitVec 8) : Nat → BitVec 8
  | 0 => 1
  | n + 1 => gmul a (gpow a n)

/-- The multiplicative inverse as `a^254 = a^2 * a^4 * ... * a^128`; it is the inverse by `IsInv` (proved in C41). -/
def inv (a : BitVec 8) : BitVec 8 :=
  ((List.range 7).foldl (fun (s : BitVec 8 × BitVec 8) _ => (gmul s.1 (gmul s.2 s.2), gmul s.2 s.2)) (1, a)).1

/-- FIPS 197 §5.1.1: the S-box. -/
def sub (a : BitVec 8) : BitVec 8 := affine (inv a)

/-- §5.1.1 SubBytes. -/
def subBytes (s : List (BitVec 8)) : List (BitVec 8) := s.map sub

/-- §5.1.2 ShiftRows: `s'[r, c] = s[r, (c + r) mod 4]`; byte `r + 4c` of the block is in row `r`, column `c`. -/
def shiftRows (s : List (BitVec 8)) : List (BitVec 8) :=
  (List.range 16).map fun k => s.getD (k % 4 + 4 * ((k / 4 + k % 4) % 4)) 0

/-- §5.1.3: the coefficients of `{03}x^3 + {01}x^2 + {01}x + {02}`, the constant one first. -/
def coeffs : List (BitVec 8) := [2, 1, 1, 3]

/-- §5.1.3 MixColumns: every column, as a polynomial, is multiplied by `coeffs` modulo `x^4 + 1`. -/
def mixColumns (s : List (BitVec 8)) : List (BitVec 8) :=
  (List.range 16).map fun k =>
    (List.range 4).foldl (fun r j =>
      r ^^^ gmul (coeffs.getD ((k % 4 + 4 - j) % 4) 0) (s.getD (4 * (k / 4) + j) 0)) 0

/-- §5.2: `Rcon[j] = [x^(j-1), 0, 0, 0]`. -/
def rcon (j : Nat) : List (BitVec 8) := [gpow 2 (j - 1), 0, 0, 0]

/-- §5.2 RotWord. -/
def rotWord (w : List (BitVec 8)) : List (BitVec 8) := w.drop 1 ++ w.take 1

/-- §5.2: the next word of the key schedule, given all the previous ones. -/
def nextWord (nk : Nat) (ws : List (List (BitVec 8))) : List (BitVec 8) :=
  let i := ws.length
  let temp := ws.getD (i - 1) []
  let temp :=
    if i % nk = 0 then xor (subBytes (rotWord temp)) (rcon (i / nk))
    else if 6 < nk ∧ i % nk = 4 then subBytes temp
    else temp
  xor (ws.getD (i - nk) []) temp

/-- §5.2: `n` further words. -/
def expand (nk : Nat) : Nat → List (List (BitVec 8)) → List (List (BitVec 8))
  | 0, ws => ws
  | n + 1, ws => expand nk n ws ++ [nextWord nk (expand nk n ws)]

/-- §5.2: the key schedule of `4 (nr + 1)` words. -/
def schedule (nk nr : Nat) (key : List (BitVec 8)) : List (List (BitVec 8)) :=
  expand nk (4 * (nr + 1) - nk) ((List.range nk).map (block 4 key))

/-- The round key of round `r`. -/
def roundKey (ws : List (List (BitVec 8))) (r : Nat) : List (BitVec 8) := ((ws.drop (4 * r)).take 4).flatten

/-- §5.1: the first `n` full rounds. -/
def rounds (ws : List (List (BitVec 8))) : Nat → List (BitVec 8) → List (BitVec 8)
  | 0, s => xor s (roundKey ws 0)
  | n + 1, s => xor (mixColumns (shiftRows (subBytes (rounds ws n s)))) (roundKey ws (n + 1))

/-- §5.1 Cipher. -/
def cipher (nk nr : Nat) (key s : List (BitVec 8)) : List (BitVec 8) :=
  let ws := schedule nk nr key
  xor (shiftRows (subBytes (rounds ws (nr - 1) s))) (roundKey ws nr)

/-- §5.3.2: the inverse of the affine map, bit by bit. -/
def affineInv (b : BitVec 8) : BitVec 8 :=
  (List.range 8).foldl (fun r i =>
    if (b.getLsbD ((i + 2) % 8) ^^ b.getLsbD ((i + 5) % 8)) ^^ b.getLsbD ((i + 7) % 8) ^^ (0x05#8).getLsbD i
    then r ||| (1#8 <<< i) else r) 0

/-- §5.3.2: the inverse S-box. -/
def invSub (a : BitVec 8) : BitVec 8 := inv (affineInv a)

/-- §5.3.2 InvSubBytes. -/
def invSubBytes (s : List (BitVec 8)) : List (BitVec 8) := s.map invSub

/-- §5.3.1 InvShiftRows: `s'[r, (c + r) mod 4] = s[r, c]`. -/
def invShiftRows (s : List (BitVec 8)) : List (BitVec 8) :=
  (List.range 16).map fun k => s.getD (k % 4 + 4 * ((k / 4 + 4 - k % 4) % 4)) 0

/-- §5.3.3: the coefficients of `{0b}x^3 + {0d}x^2 + {09}x + {0e}`. -/
def invCoeffs : List (BitVec 8) := [0x0e, 0x09, 0x0d, 0x0b]

/-- §5.3.3 InvMixColumns. -/
def invMixColumns (s : List (BitVec 8)) : List (BitVec 8) :=
  (List.range 16).map fun k =>
    (List.range 4).foldl (fun r j =>
      r ^^^ gmul (invCoeffs.getD ((k % 4 + 4 - j) % 4) 0) (s.getD (4 * (k / 4) + j) 0)) 0

/-- §5.3: the first `n` full rounds undone. -/
def invRounds (ws : List (List (BitVec 8))) : Nat → List (BitVec 8) → List (BitVec 8)
  | 0, s => xor s (roundKey ws 0)
  | n + 1, s => invRounds ws n (invSubBytes (invShiftRows (invMixColumns (xor s (roundKey ws (n + 1))))))

/-- §5.3 InvCipher. -/
def invCipher (nk nr : Nat) (key s : List (BitVec 8)) : List (BitVec 8) :=
  let ws := schedule nk nr key
  invRounds ws (nr - 1) (invSubBytes (invShiftRows (xor s (roundKey ws nr))))

/-- The key stream block for a 12-byte nonce and a 32-bit counter. -/
def ctrBlock (nk nr : Nat) (key nonce : List (BitVec 8)) (c : BitVec 32) : List (BitVec 8) :=
  cipher nk nr key (nonce ++ bytesBe32 c)

/-- Counter mode: block `j` is xored with the key stream block of `ctr + j`. -/
def ctr (nk nr : Nat) (key nonce : List (BitVec 8)) (c : BitVec 32) (m : List (BitVec 8)) : List (BitVec 8) :=
  (List.range ((m.length + 15) / 16)).flatMap fun j =>
    xor (block 16 m j) (ctrBlock nk nr key nonce (c + BitVec.ofNat 32 j))

end Hacspec.Spec.Aes
