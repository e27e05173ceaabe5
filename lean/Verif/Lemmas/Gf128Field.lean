import Mathlib.FieldTheory.Finite.Extension
import Verif.Lemmas.Gcm
import Verif.Lemmas.NatEval

/-! # `X^128 + X^7 + X^2 + X + 1` is irreducible (Rabin's test) -/

namespace Hacspec.Gf128

open SecretInt Polynomial NatEval
open Spec.Gcm (P)

/-! ## Evaluation on natural numbers -/

/-- The remaining `k` steps of `fmul`. -/
def mulN (y : Nat) : Nat → Nat → Nat → Nat
  | 0, res, _ => res
  | k + 1, res, sh =>
    force (if y.testBit k then res ^^^ sh else res) fun res' =>
      force (if sh.testBit 0 then (sh >>> 1) ^^^ 0xE1000000000000000000000000000000 else sh >>> 1) fun sh' => mulN y k res' sh'

theorem irred_toNat : irred.toNat = 0xE1000000000000000000000000000000 := by decide +kernel

theorem mulN_ok (x y : U128) (k : Nat) (hk : k ≤ 128) :
    mulN y.toNat k (fmulState x y (128 - k)).1.toNat (fmulState x y (128 - k)).2.toNat = (mulF x y).toNat := by
  induction k with
  | zero => rfl
  | succ k ih =>
    have h1 : 128 - k = 128 - (k + 1) + 1 := by omega
    have h2 : 127 - (128 - (k + 1)) = k := by omega
    rw [h1, fmulState, h2] at ih
    rw [mulN, force_eq, force_eq, ← ih (by omega)]
    simp only [BitVec.getLsbD, shStep]
    refine congrArg₂ _ ?_ ?_
    · split <;> simp
    · rw [← irred_toNat]
      split <;> simp

theorem mulF_toNat (x y : U128) : (mulF x y).toNat = mulN y.toNat 128 0 x.toNat := by
  rw [← mulN_ok x y 128 (by omega)]; rfl

/-- `x` squared `n` times. -/
def sqN : Nat → Nat → Nat
  | 0, x => x
  | n + 1, x => force (mulN x 128 0 x) (sqN n)

theorem φ_sqN (n : Nat) (x : U128) : ∃ z : U128, z.toNat = sqN n x.toNat ∧ φ (toPoly z) = φ (toPoly x) ^ 2 ^ n := by
  induction n generalizing x with
  | zero => exact ⟨x, rfl, by simp⟩
  | succ n ih =>
    obtain ⟨z, h1, h2⟩ := ih (mulF x x)
    refine ⟨z, ?_, ?_⟩
    · rw [h1, sqN, force_eq, mulF_toNat]
    · rw [h2, φ_mulF, ← pow_two, ← pow_mul, pow_succ']

/-- `X` as an element of the field. -/
def elX : U128 := 1#128 <<< 126

theorem toPoly_X : toPoly elX = X := by
  have h : ∀ i, i < 128 → elX.getLsbD (127 - i) = decide (i = 1) := by decide +kernel
  rw [toPoly, sumPoly_congr h]
  apply Polynomial.ext
  intro j
  rw [coeff_sumPoly, coeff_X]
  by_cases h1 : j = 1
  · subst h1; simp
  · simp [h1, Ne.symm h1]

/-- `X^(2^64)` modulo `P`. -/
def frob64 : Nat := 0x2f9945a9e519a7229d4c1ad657f8a686 ^^^ 2 ^ 126
/-- The inverse of `X^(2^64) + X`. -/
def inv64 : Nat := 0x180da934bf53158251c13dbb149f5279

theorem eval64 : sqN 64 (2 ^ 126) = frob64 := by decide +kernel
theorem eval128 : sqN 64 frob64 = 2 ^ 126 := by decide +kernel
theorem evalInv : mulN inv64 128 0 (frob64 ^^^ 2 ^ 126) = 2 ^ 127 := by decide +kernel

theorem X_pow_64 : (φ X) ^ 2 ^ 64 = φ (toPoly (BitVec.ofNat 128 frob64)) := by
  obtain ⟨z, h1, h2⟩ := φ_sqN 64 elX
  rw [show elX.toNat = 2 ^ 126 by decide +kernel, eval64] at h1
  rw [← toPoly_X, ← h2, ← h1, BitVec.ofNat_toNat, BitVec.setWidth_eq]

theorem X_pow_128 : (φ X) ^ 2 ^ 128 = φ X := by
  obtain ⟨z, h1, h2⟩ := φ_sqN 64 (BitVec.ofNat 128 frob64)
  rw [show (BitVec.ofNat 128 frob64).toNat = frob64 by decide +kernel, eval128] at h1
  have : z = elX := BitVec.eq_of_toNat_eq (by rw [h1]; decide +kernel)
  rw [← X_pow_64, ← pow_mul, ← pow_add, this, toPoly_X] at h2
  exact h2.symm

theorem inv_64 : (φ X ^ 2 ^ 64 - φ X) * φ (toPoly (BitVec.ofNat 128 inv64)) = 1 := by
  have e : φ X ^ 2 ^ 64 - φ X = φ (toPoly (BitVec.ofNat 128 frob64 ^^^ elX)) := by
    rw [toPoly_xor, map_add, toPoly_X, X_pow_64, ← map_sub, ← map_add, CharTwo.sub_eq_add]
  rw [e, ← φ_mulF]
  have : mulF (BitVec.ofNat 128 frob64 ^^^ elX) (BitVec.ofNat 128 inv64) = 1#128 <<< 127 := by
    apply BitVec.eq_of_toNat_eq
    rw [mulF_toNat, show (BitVec.ofNat 128 inv64).toNat = inv64 by decide +kernel,
      show (BitVec.ofNat 128 frob64 ^^^ elX).toNat = frob64 ^^^ 2 ^ 126 by decide +kernel, evalInv]
    decide +kernel
  rw [this, toPoly_one, map_one]

/-! ## Rabin's test -/

theorem rabin {Q : (ZMod 2)[X]} {n m : Nat} (hn : 0 < n) (hQ : Q.natDegree = n) (hdiv : ∀ d, d ∣ n → ¬ d ∣ m → d = n)
    (h1 : Q ∣ X ^ 2 ^ n - X) (w : (ZMod 2)[X]) (h2 : Q ∣ (X ^ 2 ^ m - X) * w - 1) : Irreducible Q := by
  have hP0 : Q ≠ 0 := by
    rintro rfl
    rw [natDegree_zero] at hQ
    omega
  have hnu : ¬ IsUnit Q := by
    intro h
    have := natDegree_eq_zero_of_isUnit h
    omega
  obtain ⟨g, hg, hgP⟩ := WfDvdMonoid.exists_irreducible_factor hnu hP0
  have hc : Nat.card (ZMod 2) = 2 := Nat.card_zmod 2
  have hdn : g.natDegree ∣ n := by
    rw [hg.natDegree_dvd_iff_dvd_X_pow_card_pow_sub_X, hc]
    exact hgP.trans h1
  have hdm : ¬ g.natDegree ∣ m := by
    rw [hg.natDegree_dvd_iff_dvd_X_pow_card_pow_sub_X, hc]
    intro h
    have h3 := (dvd_sub_right (h.mul_right _)).mp (hgP.trans h2)
    exact hg.not_isUnit (isUnit_of_dvd_one h3)
  have h3 : g.natDegree = n := hdiv _ hdn hdm
  obtain ⟨c, hcP⟩ := hgP
  have hc0 : c ≠ 0 := by rintro rfl; rw [mul_zero] at hcP; exact hP0 hcP
  have h4 : c.natDegree = 0 := by
    have := natDegree_mul hg.ne_zero hc0
    rw [← hcP, hQ, h3] at this
    omega
  have hcu : IsUnit c := by
    rw [eq_C_of_natDegree_eq_zero h4] at hc0 ⊢
    exact isUnit_C.mpr (isUnit_iff_ne_zero.mpr (fun h => hc0 (by rw [h, C_0])))
  rw [hcP]
  exact (irreducible_mul_isUnit hcu).mpr hg

theorem mk_dvd (p : (ZMod 2)[X]) (h : φ p = 0) : P ∣ p := AdjoinRoot.mk_eq_zero.mp h

theorem φ_pow_sub (k : Nat) (h : φ X ^ k = φ X) : φ (X ^ k - X) = 0 := by
  rw [map_sub, map_pow, h, sub_self]

theorem φ_mul_sub (k : Nat) (w : (ZMod 2)[X]) (h : (φ X ^ k - φ X) * φ w = 1) : φ ((X ^ k - X) * w - 1) = 0 := by
  rw [map_sub, map_mul, map_sub, map_pow, map_one, h, sub_self]

set_option maxRecDepth 4000 in
theorem natDegree_of {Q : (ZMod 2)[X]} {n : Nat} (h : Q.degree = (n : WithBot Nat)) : Q.natDegree = n := natDegree_eq_of_degree_eq_some h

theorem natDegree_P : P.natDegree = 128 := natDegree_of degree_P

theorem div_128 (d : Nat) (h : d ∣ 128) (h64 : ¬ d ∣ 64) : d = 128 := by
  have hdiv : ∀ d, d < 129 → d ∣ 128 → ¬ d ∣ 64 → d = 128 := by decide +kernel
  exact hdiv _ (Nat.lt_succ_of_le (Nat.le_of_dvd (by norm_num) h)) h h64

set_option maxRecDepth 8000 in
theorem rabin' {n m : Nat} (hn : 0 < n) (hQ : P.natDegree = n) (hdiv : ∀ d, d ∣ n → ¬ d ∣ m → d = n)
    (h1 : φ X ^ 2 ^ n = φ X) (w : (ZMod 2)[X]) (h2 : (φ X ^ 2 ^ m - φ X) * φ w = 1) : Irreducible P :=
  rabin hn hQ hdiv (mk_dvd _ (φ_pow_sub _ h1)) w (mk_dvd _ (φ_mul_sub _ _ h2))

theorem P_irreducible : Irreducible P := by
  exact rabin' (by norm_num) natDegree_P div_128 X_pow_128 _ inv_64

end Hacspec.Gf128
