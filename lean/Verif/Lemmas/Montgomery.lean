import Verif.Spec.Curves
import Mathlib.Tactic.LinearCombination
import Mathlib.Tactic.FieldSimp

/-! # The x-only formulas of the Montgomery ladder -/

namespace Hacspec.Montgomery

open Spec.X25519 WeierstrassCurve

variable {K : Type} [Field K]

theorem equation {x y : K} : (curve K).Equation x y ↔ y ^ 2 = x ^ 3 + 486662 * x ^ 2 + x := by
  rw [Affine.equation_iff]; simp [curve]

theorem negY (x y : K) : (curve K).negY x y = -y := by simp [Affine.negY, curve]

/-- `(X : Z)` are projective coordinates of `x(P)`. -/
def Rep : (curve K).Point → K → K → Prop
  | .zero, X, Z => X ≠ 0 ∧ Z = 0
  | .some x _ _, X, Z => Z ≠ 0 ∧ X = x * Z

variable [DecidableEq K]

/-- The doubling formula. -/
theorem rep_double (h2 : (2 : K) ≠ 0) (hA : (486662 : K) ^ 2 - 4 ≠ 0) {P : (curve K).Point} {X Z : K} (h : Rep P X Z) :
    Rep (P + P) ((X + Z) ^ 2 * ((X - Z) * (X - Z)))
      (((X + Z) ^ 2 - (X - Z) * (X - Z)) * ((X + Z) ^ 2 + 121665 * ((X + Z) ^ 2 - (X - Z) * (X - Z)))) := by
  have h4 : (4 : K) ≠ 0 := by
    have : (4 : K) = 2 * 2 := by norm_num
    rw [this]; exact mul_ne_zero h2 h2
  cases P with
  | zero =>
    obtain ⟨hX, hZ⟩ := h
    change Rep ((0 : (curve K).Point) + 0) _ _
    rw [add_zero]
    refine ⟨?_, ?_⟩
    · subst hZ; simp [hX]
    · subst hZ; ring
  | some x y hn =>
    obtain ⟨hZ, hX⟩ := h
    have he := equation.mp hn.1
    subst hX
    by_cases hy : y = 0
    · rw [Affine.Point.add_self_of_Y_eq (by rw [negY, hy, neg_zero])]
      have h0 : x ^ 3 + 486662 * x ^ 2 + x = 0 := by rw [← he, hy]; ring
      refine ⟨?_, ?_⟩
      · intro hc
        have hx : (x + 1) ^ 2 * (x - 1) ^ 2 = 0 := by
          have : Z ^ 4 * ((x + 1) ^ 2 * (x - 1) ^ 2) = 0 := by rw [← hc]; ring
          exact (mul_eq_zero.mp this).resolve_left (pow_ne_zero _ hZ)
        apply hA
        rcases mul_eq_zero.mp hx with hx | hx
        · have hx1 : x = -1 := by
            have := pow_eq_zero_iff (two_ne_zero) |>.mp hx
            linear_combination this
          rw [hx1] at h0
          linear_combination (486662 + 2) * h0
        · have hx1 : x = 1 := by
            have := pow_eq_zero_iff (two_ne_zero) |>.mp hx
            linear_combination this
          rw [hx1] at h0
          linear_combination (486662 - 2) * h0
      · linear_combination 4 * Z ^ 4 * h0
    · have hne : y ≠ (curve K).negY x y := by
        rw [negY]; intro h
        have : 2 * y = 0 := by linear_combination h
        rcases mul_eq_zero.mp this with h' | h'
        · exact h2 h'
        · exact hy h'
      rw [Affine.Point.add_self_of_Y_ne hne]
      have hZ2 : 4 * x * (x ^ 2 + 486662 * x + 1) ≠ 0 := by
        have : 4 * x * (x ^ 2 + 486662 * x + 1) = 4 * y ^ 2 := by linear_combination -4 * he
        rw [this]; exact mul_ne_zero h4 (pow_ne_zero _ hy)
      refine ⟨?_, ?_⟩
      · have : ((x * Z + Z) ^ 2 - (x * Z - Z) * (x * Z - Z)) *
            ((x * Z + Z) ^ 2 + 121665 * ((x * Z + Z) ^ 2 - (x * Z - Z) * (x * Z - Z))) =
            Z ^ 4 * (4 * x * (x ^ 2 + 486662 * x + 1)) := by ring
        rw [this]; exact mul_ne_zero (pow_ne_zero _ hZ) hZ2
      · have h2y : y - -y ≠ 0 := by
          rw [sub_neg_eq_add, ← two_mul]; exact mul_ne_zero h2 hy
        have hl : (curve K).slope x x y y * (2 * y) = 3 * x ^ 2 + 2 * 486662 * x + 1 := by
          rw [Affine.slope_of_Y_ne rfl hne, negY, div_mul_eq_mul_div, div_eq_iff h2y]
          simp only [curve]; ring
        generalize (curve K).slope x x y y = l at hl ⊢
        simp only [Affine.addX, curve]
        have hl2 : l ^ 2 * (4 * y ^ 2) = (3 * x ^ 2 + 2 * 486662 * x + 1) ^ 2 := by rw [← hl]; ring
        linear_combination Z ^ 4 * (-hl2) + (4 * Z ^ 4 * (l ^ 2 - 486662 - 2 * x)) * (he) - 4 * Z ^ 4 * (-486662 - 2 * x) * he

/-- The differential addition formula: `Q - P = B` with `x(B) = u`, `u ≠ 0`. -/
theorem rep_add (h2 : (2 : K) ≠ 0) (hA : (486662 : K) ^ 2 - 4 ≠ 0) {P Q : (curve K).Point} {x0 y0 : K} {hn : (curve K).Nonsingular x0 y0}
    (hd : Q = P + .some x0 y0 hn) (h0 : x0 ≠ 0) {X2 Z2 X3 Z3 : K} (hP : Rep P X2 Z2) (hQ : Rep Q X3 Z3) :
    Rep (P + Q) (((X3 - Z3) * (X2 + Z2) + (X3 + Z3) * (X2 - Z2)) ^ 2)
      (x0 * ((X3 - Z3) * (X2 + Z2) - (X3 + Z3) * (X2 - Z2)) ^ 2) := by
  have h4 : (4 : K) ≠ 0 := by
    have : (4 : K) = 2 * 2 := by norm_num
    rw [this]; exact mul_ne_zero h2 h2
  cases P with
  | zero =>
    obtain ⟨hX, hZ⟩ := hP
    change Q = 0 + _ at hd
    change Rep (0 + Q) _ _
    rw [zero_add] at hd ⊢
    subst hd hZ
    obtain ⟨hZ3, hX3⟩ := hQ
    subst hX3
    refine ⟨?_, ?_⟩
    · rw [show x0 * ((x0 * Z3 - Z3) * (X2 + 0) - (x0 * Z3 + Z3) * (X2 - 0)) ^ 2 = x0 * (4 * (X2 ^ 2 * Z3 ^ 2)) by ring]
      exact mul_ne_zero h0 (mul_ne_zero h4 (mul_ne_zero (pow_ne_zero _ hX) (pow_ne_zero _ hZ3)))
    · ring
  | some x1 y1 hn1 =>
    obtain ⟨hZ, hX⟩ := hP
    subst hX
    cases Q with
    | zero =>
      obtain ⟨hX3, hZ3⟩ := hQ
      change 0 = _ at hd
      have hP : Affine.Point.some x1 y1 hn1 = -Affine.Point.some x0 y0 hn := eq_neg_of_add_eq_zero_left hd.symm
      rw [Affine.Point.neg_some] at hP
      have hx : x1 = x0 := by injection hP
      subst hx hZ3
      change Rep (_ + 0) _ _
      rw [add_zero]
      refine ⟨?_, ?_⟩
      · rw [show x1 * ((X3 - 0) * (x1 * Z2 + Z2) - (X3 + 0) * (x1 * Z2 - Z2)) ^ 2 = x1 * (4 * (X3 ^ 2 * Z2 ^ 2)) by ring]
        exact mul_ne_zero h0 (mul_ne_zero h4 (mul_ne_zero (pow_ne_zero _ hX3) (pow_ne_zero _ hZ)))
      · ring
    | some x2 y2 hn2 =>
      obtain ⟨hZ3, hX3⟩ := hQ
      subst hX3
      have e1 := equation.mp hn1.1
      have e2 := equation.mp hn2.1
      by_cases hx : x1 = x2
      · subst hx
        have hne : Affine.Point.some x1 y1 hn1 ≠ Affine.Point.some x1 y2 hn2 := by
          intro h
          rw [← h] at hd
          have := left_eq_add.mp hd
          exact Affine.Point.some_ne_zero _ this
        have hneg : Affine.Point.some x1 y2 hn2 = -Affine.Point.some x1 y1 hn1 := by
          rcases Affine.Point.X_eq_iff.mp (rfl : x1 = x1) with h | h
          · exact absurd h hne
          · rw [h, neg_neg]
        have hB : Affine.Point.some x1 y1 hn1 + Affine.Point.some x1 y1 hn1 = -Affine.Point.some x0 y0 hn := by
          rw [hneg] at hd
          rw [eq_neg_iff_add_eq_zero, add_assoc, ← hd, add_neg_cancel]
        have hr := rep_double h2 hA (P := .some x1 y1 hn1) (X := x1) (Z := 1) ⟨one_ne_zero, (mul_one _).symm⟩
        rw [hB, Affine.Point.neg_some] at hr
        obtain ⟨hr1, hr2⟩ := hr
        have hr3 : (x1 + 1) ^ 2 * ((x1 - 1) * (x1 - 1)) ≠ 0 := by rw [hr2]; exact mul_ne_zero h0 hr1
        rw [hneg, add_neg_cancel]
        refine ⟨?_, ?_⟩
        · rw [show ((x1 * Z3 - Z3) * (x1 * Z2 + Z2) + (x1 * Z3 + Z3) * (x1 * Z2 - Z2)) ^ 2 =
            4 * (Z2 ^ 2 * (Z3 ^ 2 * ((x1 + 1) ^ 2 * ((x1 - 1) * (x1 - 1))))) by ring]
          exact mul_ne_zero h4 (mul_ne_zero (pow_ne_zero _ hZ) (mul_ne_zero (pow_ne_zero _ hZ3) hr3))
        · ring
      · have hsub : x1 - x2 ≠ 0 := sub_ne_zero.mpr hx
        have hB : Affine.Point.some x0 y0 hn = -Affine.Point.some x1 y1 hn1 + Affine.Point.some x2 y2 hn2 := by
          rw [hd, neg_add_cancel_left]
        rw [Affine.Point.neg_some, Affine.Point.add_of_X_ne hx] at hB
        have hx0 : x0 = (curve K).addX x1 x2 ((curve K).slope x1 x2 ((curve K).negY x1 y1) y2) := by injection hB
        rw [Affine.Point.add_of_X_ne hx]
        have hl : (curve K).slope x1 x2 y1 y2 * (x1 - x2) = y1 - y2 := by
          rw [Affine.slope_of_X_ne hx, div_mul_cancel₀ _ hsub]
        have hm : (curve K).slope x1 x2 ((curve K).negY x1 y1) y2 * (x1 - x2) = -(y1 + y2) := by
          rw [Affine.slope_of_X_ne hx, div_mul_cancel₀ _ hsub, negY]; ring
        generalize (curve K).slope x1 x2 ((curve K).negY x1 y1) y2 = m at hm hx0
        refine ⟨?_, ?_⟩
        · rw [show x0 * ((x2 * Z3 - Z3) * (x1 * Z2 + Z2) - (x2 * Z3 + Z3) * (x1 * Z2 - Z2)) ^ 2 =
            x0 * (4 * (Z2 ^ 2 * (Z3 ^ 2 * (x1 - x2) ^ 2))) by ring]
          exact mul_ne_zero h0 (mul_ne_zero h4 (mul_ne_zero (pow_ne_zero _ hZ)
            (mul_ne_zero (pow_ne_zero _ hZ3) (pow_ne_zero _ hsub))))
        · generalize (curve K).slope x1 x2 y1 y2 = l at hl ⊢
          simp only [Affine.addX, curve] at hx0 ⊢
          have key : (l ^ 2 + 0 * l - 486662 - x1 - x2) * x0 * (x1 - x2) ^ 2 = (x1 * x2 - 1) ^ 2 := by
            have hs : (x1 - x2) ^ 2 ≠ 0 := pow_ne_zero _ hsub
            apply mul_right_cancel₀ hs
            have : (l ^ 2 + 0 * l - 486662 - x1 - x2) * x0 * (x1 - x2) ^ 2 * (x1 - x2) ^ 2 =
                ((l * (x1 - x2)) ^ 2 - (486662 + x1 + x2) * (x1 - x2) ^ 2) *
                ((m * (x1 - x2)) ^ 2 - (486662 + x1 + x2) * (x1 - x2) ^ 2) := by rw [hx0]; ring
            rw [this, hl, hm]
            have : ((y1 - y2) ^ 2 - (486662 + x1 + x2) * (x1 - x2) ^ 2) *
                ((-(y1 + y2)) ^ 2 - (486662 + x1 + x2) * (x1 - x2) ^ 2) =
                (y1 ^ 2 - y2 ^ 2) ^ 2 - 2 * ((486662 + x1 + x2) * (x1 - x2) ^ 2) * (y1 ^ 2 + y2 ^ 2) +
                ((486662 + x1 + x2) * (x1 - x2) ^ 2) ^ 2 := by ring
            rw [this, e1, e2]; ring
          linear_combination -4 * Z2 ^ 2 * Z3 ^ 2 * key

end Hacspec.Montgomery
