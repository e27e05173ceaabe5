import Mathlib.RingTheory.AdjoinRoot
import Mathlib.Algebra.CharP.Two
import Mathlib.Tactic.Ring
import Mathlib.Tactic.ComputeDegree
import Verif.Lemmas.AesCipher
import Verif.Spec.Gcm

/-! # GF(2^128): `fmul` is multiplication modulo `X^128 + X^7 + X^2 + X + 1` -/

namespace Hacspec.Gf128

open SecretInt Hacspec.Seq Polynomial
open Spec.Gcm (P bitAt blockPoly polyBlock)

/-- The polynomial with the coefficients `f 0, ..., f 127`. -/
noncomputable def sumPoly (f : Nat → Bool) : (ZMod 2)[X] := ∑ i ∈ Finset.range 128, if f i then X ^ i else 0

theorem add_self (p : (ZMod 2)[X]) : p + p = 0 := CharTwo.add_self_eq_zero p

theorem sumPoly_xor (f g : Nat → Bool) : sumPoly (fun i => f i ^^ g i) = sumPoly f + sumPoly g := by
  rw [sumPoly, sumPoly, sumPoly, ← Finset.sum_add_distrib]
  apply Finset.sum_congr rfl
  intro i _
  cases f i <;> cases g i <;> simp [add_self]

theorem coeff_sumPoly (f : Nat → Bool) (j : Nat) : (sumPoly f).coeff j = if j < 128 ∧ f j then 1 else 0 := by
  rw [sumPoly, finset_sum_coeff]
  have : ∀ i ∈ Finset.range 128, ((if f i then X ^ i else 0 : (ZMod 2)[X]).coeff j) =
      if i = j then (if f j then 1 else 0) else 0 := by
    intro i _
    by_cases h : i = j
    · subst h; cases f i <;> simp
    · cases f i <;> simp [coeff_X_pow, h, Ne.symm h]
  rw [Finset.sum_congr rfl this, Finset.sum_ite_eq']
  by_cases h : j < 128 <;> simp [h]

theorem sumPoly_inj {f g : Nat → Bool} (h : sumPoly f = sumPoly g) {j : Nat} (hj : j < 128) : f j = g j := by
  have := congrArg (fun p => coeff p j) h
  simp only [coeff_sumPoly, hj, true_and] at this
  cases hf : f j <;> cases hg : g j <;> simp [hf, hg] at this ⊢

theorem sumPoly_congr {f g : Nat → Bool} (h : ∀ i, i < 128 → f i = g i) : sumPoly f = sumPoly g := by
  apply Finset.sum_congr rfl
  intro i hi
  rw [h i (Finset.mem_range.mp hi)]

theorem degree_sumPoly (f : Nat → Bool) : (sumPoly f).degree < ((128 : Nat) : WithBot Nat) := by
  rw [degree_lt_iff_coeff_zero]
  intro m hm
  rw [coeff_sumPoly, if_neg]
  rintro ⟨h, _⟩
  omega

theorem X_mul_sum (n m : Nat) (hm : m = n + 1) (f : Nat → Bool) :
    X * (∑ i ∈ Finset.range m, if f i then X ^ i else 0 : (ZMod 2)[X]) =
      (∑ i ∈ Finset.range m, if decide (i ≠ 0) && f (i - 1) then X ^ i else 0) + if f n then X ^ m else 0 := by
  subst hm
  rw [Finset.mul_sum, Finset.sum_range_succ (n := n), Finset.sum_range_succ' (n := n)]
  simp only [Nat.add_sub_cancel, ne_eq, Nat.add_eq_zero_iff, one_ne_zero, and_false, not_false_eq_true, decide_true,
    Bool.true_and, decide_false, Bool.false_and, not_true_eq_false, Bool.false_eq_true, if_false, add_zero]
  congr 1
  · apply Finset.sum_congr rfl
    intro i _
    cases f i <;> simp [pow_succ']
  · cases f n <;> simp [pow_succ']

set_option maxRecDepth 4000 in
theorem X_mul_sumPoly (f : Nat → Bool) :
    X * sumPoly f = sumPoly (fun i => decide (i ≠ 0) && f (i - 1)) + if f 127 then X ^ 128 else 0 := by
  exact X_mul_sum 127 128 rfl f

/-- The polynomial of a field element: bit `127 - i` is the coefficient of `X^i`. -/
noncomputable def toPoly (x : U128) : (ZMod 2)[X] := sumPoly fun i => x.getLsbD (127 - i)

theorem toPoly_inj {x y : U128} (h : toPoly x = toPoly y) : x = y := by
  apply BitVec.eq_of_getLsbD_eq
  intro i hi
  have := sumPoly_inj h (j := 127 - i) (by omega)
  rwa [show 127 - (127 - i) = i by omega] at this

theorem toPoly_xor (x y : U128) : toPoly (x ^^^ y) = toPoly x + toPoly y := by
  rw [toPoly, toPoly, toPoly, ← sumPoly_xor]
  apply sumPoly_congr
  intro i _
  rw [BitVec.getLsbD_xor]

theorem toPoly_zero : toPoly 0#128 = 0 := by
  rw [toPoly, sumPoly]; simp

theorem toPoly_irred : toPoly irred = X ^ 7 + X ^ 2 + X + 1 := by
  have h : ∀ i, i < 128 → irred.getLsbD (127 - i) = decide (i = 0 ∨ i = 1 ∨ i = 2 ∨ i = 7) := by decide +kernel
  rw [toPoly, sumPoly_congr h]
  apply Polynomial.ext
  intro j
  rw [coeff_sumPoly]
  simp only [coeff_add, coeff_X_pow, coeff_X, coeff_one, decide_eq_true_eq]
  by_cases h0 : j = 0
  · subst h0; simp
  by_cases h1 : j = 1
  · subst h1; simp
  by_cases h2 : j = 2
  · subst h2; simp
  by_cases h7 : j = 7
  · subst h7; simp
  simp [h0, h1, h2, h7, Ne.symm h1]

theorem X_mul_toPoly (x : U128) :
    X * toPoly x = toPoly (x >>> 1) + if x.getLsbD 0 then X ^ 128 else 0 := by
  rw [toPoly, X_mul_sumPoly, toPoly]
  refine congrArg₂ (· + ·) ?_ rfl
  apply sumPoly_congr
  intro i hi
  rw [BitVec.getLsbD_ushiftRight]
  by_cases h : i = 0
  · subst h; simp
  · simp only [ne_eq, h, not_false_eq_true, decide_true, Bool.true_and]
    congr 1; omega

/-- One step of the register `sh`. -/
def shStep (s : U128) : U128 := if s.getLsbD 0 then (s >>> 1) ^^^ irred else s >>> 1

/-- Reduction modulo `P`. -/
noncomputable def φ : (ZMod 2)[X] →+* AdjoinRoot P := AdjoinRoot.mk P

theorem φ_P : φ P = 0 := AdjoinRoot.mk_self

theorem assoc5 (a b c d e : (ZMod 2)[X]) : a + b + c + d + e = a + (b + c + d + e) := by ring

set_option maxRecDepth 4000 in
theorem P_eq : P = X ^ 128 + (X ^ 7 + X ^ 2 + X + 1) := by
  exact assoc5 _ _ _ _ _

theorem char_two (a b q : (ZMod 2)[X]) : a + b = a + q + (b + q) := by
  rw [show a + q + (b + q) = a + b + (q + q) by ring, add_self, add_zero]

theorem φ_shStep (s : U128) : φ (toPoly (shStep s)) = φ X * φ (toPoly s) := by
  rw [← map_mul, X_mul_toPoly, shStep]
  split
  · rw [toPoly_xor, toPoly_irred]
    rw [char_two (toPoly (s >>> 1)) (X ^ 128) (X ^ 7 + X ^ 2 + X + 1), ← P_eq, map_add _ _ P, φ_P, add_zero]
  · rw [add_zero]

theorem getLsbD_and_one (x : U128) {i : Nat} (hi : i < 128) : (x &&& (1#128 <<< i) ≠ 0#128) ↔ x.getLsbD i = true := by
  constructor
  · intro h
    apply Classical.byContradiction
    intro hn
    apply h
    apply BitVec.eq_of_getLsbD_eq
    intro j hj
    rw [BitVec.getLsbD_and, BitVec.getLsbD_shiftLeft, BitVec.getLsbD_one]
    by_cases e : j = i
    · subst e; simp at hn; simp [hn]
    · have : (decide (0 < 128) && decide (j - i = 0)) = true → j < i := by
        intro h; simp at h; omega
      by_cases hji : j < i
      · simp [hji]
      · have : j - i ≠ 0 := by omega
        simp [this]
  · intro h e
    have := congrArg (fun v => BitVec.getLsbD v i) e
    simp only [BitVec.getLsbD_and, h, BitVec.getLsbD_shiftLeft, BitVec.getLsbD_one, hi] at this
    simp at this

theorem fmulStep_ok (y : U128) {i : Nat} (hi : i < 128) (res sh : U128) :
    fmulStep y i (res, sh) = .ok (if y.getLsbD (127 - i) then res ^^^ sh else res, shStep sh) := by
  have h1 : shl (1#128) (127 - i) = .ok (1#128 <<< (127 - i)) := by
    rw [shl, if_pos (by omega)]
  have h2 : shrU sh 1 = .ok (sh >>> 1) := by rw [shrU, if_pos (by omega)]
  have hb := getLsbD_and_one y (i := 127 - i) (by omega)
  have hs := getLsbD_and_one sh (i := 0) (by omega)
  rw [BitVec.shiftLeft_zero] at hs
  rw [fmulStep, h1, bind_ok, h2, bind_ok]
  simp only [declassify, shStep, hb, hs]

/-- The state of the loop of `fmul`. -/
def fmulState (x y : U128) : Nat → U128 × U128
  | 0 => (0, x)
  | i + 1 =>
    (if y.getLsbD (127 - i) then (fmulState x y i).1 ^^^ (fmulState x y i).2 else (fmulState x y i).1,
      shStep (fmulState x y i).2)

/-- What `fmul` returns. -/
def mulF (x y : U128) : U128 := (fmulState x y 128).1

theorem fmul_ok (x y : U128) : fmul x y = .ok (mulF x y) := by
  rw [fmul, show ((0#128, x) : U128 × U128) = fmulState x y 0 from rfl,
    loop_eq (fmulState x y) (fun i hi => fmulStep_ok y hi _ _), bind_ok]
  rfl

theorem fmulState_sh (x y : U128) (i : Nat) : φ (toPoly (fmulState x y i).2) = φ X ^ i * φ (toPoly x) := by
  induction i with
  | zero => simp [fmulState]
  | succ i ih => rw [fmulState, φ_shStep, ih, pow_succ']; ring

theorem fmulState_res (x y : U128) (i : Nat) : φ (toPoly (fmulState x y i).1) =
    φ (∑ j ∈ Finset.range i, if y.getLsbD (127 - j) then X ^ j else 0) * φ (toPoly x) := by
  induction i with
  | zero => rw [fmulState, show ((0 : U128), x).1 = 0#128 from rfl, toPoly_zero]; simp
  | succ i ih =>
    rw [fmulState, Finset.sum_range_succ, map_add, add_mul, ← ih]
    by_cases h : y.getLsbD (127 - i) = true
    · simp only [h, if_true]
      rw [toPoly_xor, map_add, fmulState_sh, map_pow]
    · simp only [h, Bool.false_eq_true, if_false, map_zero, zero_mul, add_zero]

theorem φ_mulF (x y : U128) : φ (toPoly (mulF x y)) = φ (toPoly x) * φ (toPoly y) := by
  rw [mulF, fmulState_res, mul_comm]; rfl

theorem degree_low : (X ^ 7 + X ^ 2 + X + 1 : (ZMod 2)[X]).degree < ((128 : Nat) : WithBot Nat) := by
  have : (X ^ 7 + X ^ 2 + X + 1 : (ZMod 2)[X]).degree ≤ ((7 : Nat) : WithBot Nat) := by
    compute_degree
    exact le_refl _
  exact lt_of_le_of_lt this (by exact_mod_cast (by decide : 7 < 128))

theorem monic_P : P.Monic := by rw [P_eq]; exact monic_X_pow_add degree_low
theorem degree_P : P.degree = ((128 : Nat) : WithBot Nat) := by
  rw [P_eq, degree_add_eq_left_of_degree_lt (by rw [degree_X_pow]; exact degree_low), degree_X_pow]

theorem toPoly_mod (x : U128) : toPoly x %ₘ P = toPoly x :=
  (modByMonic_eq_self_iff monic_P).mpr (by rw [degree_P]; exact degree_sumPoly _)

theorem mod_eq_of_φ {p q : (ZMod 2)[X]} (h : φ p = φ q) : p %ₘ P = q %ₘ P := by
  exact modByMonic_eq_of_dvd_sub monic_P (AdjoinRoot.mk_eq_mk.mp h)

theorem φ_inj {x y : U128} (h : φ (toPoly x) = φ (toPoly y)) : x = y := by
  have := mod_eq_of_φ h
  rw [toPoly_mod, toPoly_mod] at this
  exact toPoly_inj this

theorem toPoly_mulF (x y : U128) : toPoly (mulF x y) = toPoly x * toPoly y %ₘ P := by
  rw [← toPoly_mod (mulF x y)]
  exact mod_eq_of_φ (by rw [φ_mulF, map_mul])

end Hacspec.Gf128
