import Mathlib.Algebra.Polynomial.Div
import Mathlib.Data.ZMod.Basic
import Verif.Spec.Aes

/-! # Specification: GHASH and GCM (SP 800-38D) with 96-bit nonces -/

namespace Hacspec.Spec.Gcm

open Polynomial

/-- Bit `i` of a byte string, the leftmost (most significant) bit of the first byte being bit 0; 0 after the end. -/
def bitAt (b : List (BitVec 8)) (i : Nat) : Bool := (b.getD (i / 8) 0).getLsbD (7 - i % 8)

/-- SP 800-38D §6.3: the block as a polynomial, bit `i` being the coefficient of `X^i`. -/
noncomputable def blockPoly (b : List (BitVec 8)) : (ZMod 2)[X] :=
  ∑ i ∈ Finset.range 128, if bitAt b i then X ^ i else 0

/-- The polynomial of the field. -/
noncomputable def P : (ZMod 2)[X] := X ^ 128 + X ^ 7 + X ^ 2 + X + 1

/-- The block of 16 bytes with the given polynomial. -/
noncomputable def polyBlock (p : (ZMod 2)[X]) : List (BitVec 8) :=
  (List.range 16).map fun k =>
    (List.range 8).foldl (fun r j => if p.coeff (8 * k + (7 - j)) = 1 then r ||| (1#8 <<< j) else r) 0

/-- §6.4 GHASH as polynomial evaluation: `X_1 • H^n ⊕ X_2 • H^(n-1) ⊕ ... ⊕ X_n • H`; an incomplete last block is
filled up with zeros. -/
noncomputable def ghash (h x : List (BitVec 8)) : List (BitVec 8) :=
  polyBlock ((∑ i ∈ Finset.range ((x.length + 15) / 16),
    blockPoly (block 16 x i) * blockPoly h ^ ((x.length + 15) / 16 - i)) %ₘ P)

/-- §7.1: the input of GHASH. -/
def macData (aad c : List (BitVec 8)) : List (BitVec 8) :=
  aad ++ pad16 aad ++ c ++ pad16 c ++ bytesBe64 (BitVec.ofNat 64 (8 * aad.length)) ++
    bytesBe64 (BitVec.ofNat 64 (8 * c.length))

/-- §7.1: the tag of 128 bits; `H = CIPH(0^128)`, `J_0 = IV || 0^31 1`. -/
noncomputable def tag (nk nr : Nat) (key iv aad c : List (BitVec 8)) : List (BitVec 8) :=
  xor (ghash (Aes.cipher nk nr key (List.replicate 16 0)) (macData aad c)) (Aes.ctrBlock nk nr key iv 1)

end Hacspec.Spec.Gcm
