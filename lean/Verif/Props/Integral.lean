import Verif.Lemmas.AesIntegral

/-! # C121: sums over sets of blocks through AES -/

namespace Hacspec.Props

open Hacspec.Aes Hacspec.Spec Finset

/-- **C121** If one byte of a block takes all values, then the blocks after three rounds have the sum 0. -/
theorem C121_three {s k1 k2 k3 : List U8} (hs : s.length = 16) (h1 : k1.length = 16) (h2 : k2.length = 16) (h3 : k3.length = 16)
    {j : Nat} (hj : j < 16) {e1 e2 e3 : U8 → List U8} (g1 : ∀ x, aesEnc (s.set j x) k1 = .ok (e1 x)) (g2 : ∀ x, aesEnc (e1 x) k2 = .ok (e2 x))
    (g3 : ∀ x, aesEnc (e2 x) k3 = .ok (e3 x)) (p : Nat) (hp : p < 16) : xorOver (fun x => (e3 x).getD p 0) = 0 :=
  three_rounds hs h1 h2 h3 hj g1 g2 g3 hp

/-- **C121** If the four bytes `4 c`, `4 c + 5`, `4 c + 10`, `4 c + 15` (modulo 16), which go into one column, take all values, then
the blocks after four rounds have the sum 0. -/
theorem C121_four {s k1 k2 k3 k4 : List U8} (hs : s.length = 16) (h1 : k1.length = 16) (h2 : k2.length = 16)
    (h3 : k3.length = 16) (h4 : k4.length = 16) {c : Nat} (hc : c < 4) {e1 e2 e3 e4 : U8 × U8 × U8 × U8 → List U8}
    (g1 : ∀ y, aesEnc ((((s.set (4 * c % 16) y.1).set ((4 * c + 5) % 16) y.2.1).set ((4 * c + 10) % 16) y.2.2.1).set
      ((4 * c + 15) % 16) y.2.2.2) k1 = .ok (e1 y))
    (g2 : ∀ y, aesEnc (e1 y) k2 = .ok (e2 y)) (g3 : ∀ y, aesEnc (e2 y) k3 = .ok (e3 y)) (g4 : ∀ y, aesEnc (e3 y) k4 = .ok (e4 y))
    (p : Nat) (hp : p < 16) : xorOver (fun y => (e4 y).getD p 0) = 0 := by
  refine four_rounds_zero hs h1 h2 h3 h4 hc (fun y => ?_) g2 g3 g4 hp
  rw [← g1 y, put]
  simp only [source, Nat.mul_div_cancel_left c (show 0 < 4 by omega)]
  rfl

/-- A round with the key `0, 1, ..., 15`. -/
def countRound (s : List U8) : List U8 :=
  Spec.xor (Spec.Aes.mixColumns (Spec.Aes.shiftRows (Spec.Aes.subBytes s))) ((List.range 16).map (BitVec.ofNat 8))

theorem countRound_ok {s : List U8} (hs : s.length = 16) : aesEnc s ((List.range 16).map (BitVec.ofNat 8)) = .ok (countRound s) :=
  aesEnc_ok hs rfl

theorem length_countRound (s : List U8) : (countRound s).length = 16 := length_xor16 (length_mixColumns _) rfl

/-- One byte that takes all values, and three rounds. -/
example (j : Nat) (hj : j < 16) (p : Nat) (hp : p < 16) :
    xorOver (fun x => (countRound (countRound (countRound ((List.replicate 16 7).set j x)))).getD p 0) = 0 :=
  C121_three (k1 := (List.range 16).map (BitVec.ofNat 8)) (k2 := (List.range 16).map (BitVec.ofNat 8))
    (k3 := (List.range 16).map (BitVec.ofNat 8)) (s := List.replicate 16 7) rfl rfl rfl rfl hj
    (fun x => countRound_ok (by rw [List.length_set]; rfl)) (fun x => countRound_ok (length_countRound _))
    (fun x => countRound_ok (length_countRound _)) p hp

/-- Four bytes that take all values, and four rounds. -/
example (p : Nat) (hp : p < 16) : xorOver (fun y : U8 × U8 × U8 × U8 => (countRound (countRound (countRound (countRound
    (((((List.replicate 16 7).set 4 y.1).set 9 y.2.1).set 14 y.2.2.1).set 3 y.2.2.2))))).getD p 0) = 0 :=
  C121_four (k1 := (List.range 16).map (BitVec.ofNat 8)) (k2 := (List.range 16).map (BitVec.ofNat 8))
    (k3 := (List.range 16).map (BitVec.ofNat 8)) (k4 := (List.range 16).map (BitVec.ofNat 8)) (s := List.replicate 16 7) rfl rfl rfl rfl rfl
    (c := 1) (by omega) (fun y => countRound_ok (by simp only [List.length_set]; rfl)) (fun x => countRound_ok (length_countRound _))
    (fun x => countRound_ok (length_countRound _)) (fun x => countRound_ok (length_countRound _)) p hp

end Hacspec.Props
