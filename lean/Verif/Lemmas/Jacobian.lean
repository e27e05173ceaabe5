import Verif.Spec.Curves
import Mathlib.Tactic.LinearCombination
import Mathlib.Tactic.FieldSimp

/-! # Jacobian coordinates on `y^2 = x^3 - 3 x + c`: the formulas -/

namespace Hacspec.Jac

open Spec.P256 WeierstrassCurve

variable {K : Type} [Field K] {c : K}

theorem equation {x y : K} : (curveOf c).Equation x y ↔ y ^ 2 = x ^ 3 - 3 * x + c := by
  rw [Affine.equation_iff]; simp [curveOf, sub_eq_add_neg]

theorem negY (x y : K) : (curveOf c).negY x y = -y := by simp [Affine.negY, curveOf]

/-- `(X, Y, Z)` are Jacobian coordinates of the point. -/
def Rep : (curveOf c).Point → K → K → K → Prop
  | .zero, _, _, Z => Z = 0
  | .some x y _, X, Y, Z => Z ≠ 0 ∧ X = x * Z ^ 2 ∧ Y = y * Z ^ 3

variable [DecidableEq K]

theorem rep_double (h2 : (2 : K) ≠ 0) {P : (curveOf c).Point} {X Y Z : K} (h : Rep P X Y Z) :
    Rep (P + P) ((3 * ((X - Z ^ 2) * (X + Z ^ 2))) ^ 2 - 8 * (X * Y ^ 2))
      (3 * ((X - Z ^ 2) * (X + Z ^ 2)) *
        (4 * (X * Y ^ 2) - ((3 * ((X - Z ^ 2) * (X + Z ^ 2))) ^ 2 - 8 * (X * Y ^ 2))) - 8 * (Y ^ 2 * Y ^ 2))
      ((Y + Z) ^ 2 - (Y ^ 2 + Z ^ 2)) := by
  cases P with
  | zero =>
    have hZ : Z = 0 := h
    change Rep ((0 : (curveOf c).Point) + 0) _ _ _
    rw [add_zero, hZ]
    change _ = _
    ring
  | some x y hn =>
    obtain ⟨hZ, hX, hY⟩ := h
    have hz3 : (Y + Z) ^ 2 - (Y ^ 2 + Z ^ 2) = 2 * y * Z ^ 4 := by rw [hY]; ring
    by_cases hy : y = 0
    · rw [Affine.Point.add_self_of_Y_eq (by rw [negY, hy, neg_zero])]
      change _ = _
      rw [hz3, hy]; ring
    · have hne : y ≠ (curveOf c).negY x y := by
        rw [negY]; intro h
        have : 2 * y = 0 := by linear_combination h
        rcases mul_eq_zero.mp this with h' | h'
        · exact h2 h'
        · exact hy h'
      rw [Affine.Point.add_self_of_Y_ne hne, hz3]
      have h2y : y - -y ≠ 0 := by
        rw [sub_neg_eq_add, ← two_mul]; exact mul_ne_zero h2 hy
      have hl : (curveOf c).slope x x y y * (2 * y) = 3 * x ^ 2 - 3 := by
        rw [Affine.slope_of_Y_ne rfl hne, negY, div_mul_eq_mul_div, div_eq_iff h2y]
        simp only [curveOf]; ring
      obtain ⟨l, hlg⟩ : ∃ l, (curveOf c).slope x x y y = l := ⟨_, rfl⟩
      rw [hlg] at hl
      have ha : 3 * ((X - Z ^ 2) * (X + Z ^ 2)) = l * (2 * y) * Z ^ 4 := by rw [hl, hX]; ring
      refine ⟨mul_ne_zero (mul_ne_zero h2 hy) (pow_ne_zero _ hZ), ?_, ?_⟩
      · rw [hlg, ha]
        simp only [Affine.addX, curveOf]
        rw [hX, hY]; ring
      · rw [hlg, ha]
        simp only [Affine.addY, Affine.negAddY, Affine.negY, Affine.addX, curveOf]
        rw [hX, hY]; ring

/-- The general case of the addition. -/
theorem rep_add (h2 : (2 : K) ≠ 0) {x1 y1 x2 y2 : K} {h1n : (curveOf c).Nonsingular x1 y1}
    {h2n : (curveOf c).Nonsingular x2 y2} (hx : x1 ≠ x2) {X1 Y1 Z1 X2 Y2 Z2 : K} (h1 : Rep (.some x1 y1 h1n) X1 Y1 Z1)
    (h2' : Rep (.some x2 y2 h2n) X2 Y2 Z2) {U1 U2 S1 S2 H I J R V X3 : K}
    (hU1 : U1 = X1 * Z2 ^ 2) (hU2 : U2 = X2 * Z1 ^ 2) (hS1 : S1 = Y1 * Z2 * Z2 ^ 2) (hS2 : S2 = Y2 * Z1 * Z1 ^ 2)
    (hH : H = U2 - U1) (hI : I = (2 * H) ^ 2) (hJ : J = H * I) (hR : R = 2 * (S2 - S1)) (hV : V = U1 * I)
    (hX3 : X3 = R ^ 2 - J - 2 * V) :
    Rep (Affine.Point.some x1 y1 h1n + Affine.Point.some x2 y2 h2n) X3 (R * (V - X3) - 2 * S1 * J)
      (((Z1 + Z2) ^ 2 - (Z1 ^ 2 + Z2 ^ 2)) * H) := by
  obtain ⟨hZ1, hX1, hY1⟩ := h1
  obtain ⟨hZ2, hX2, hY2⟩ := h2'
  have hsub : x1 - x2 ≠ 0 := sub_ne_zero.mpr hx
  rw [Affine.Point.add_of_X_ne hx]
  have hl : (curveOf c).slope x1 x2 y1 y2 * (x1 - x2) = y1 - y2 := by
    rw [Affine.slope_of_X_ne hx, div_mul_cancel₀ _ hsub]
  obtain ⟨l, hlg⟩ : ∃ l, (curveOf c).slope x1 x2 y1 y2 = l := ⟨_, rfl⟩
  rw [hlg] at hl
  have hHv : H = -(x1 - x2) * (Z1 * Z2) ^ 2 := by rw [hH, hU1, hU2, hX1, hX2]; ring
  have hRv : R = -(2 * (l * (x1 - x2)) * (Z1 * Z2) ^ 3) := by rw [hR, hS1, hS2, hY1, hY2, hl]; ring
  refine ⟨?_, ?_, ?_⟩
  · rw [hHv, show (Z1 + Z2) ^ 2 - (Z1 ^ 2 + Z2 ^ 2) = 2 * (Z1 * Z2) by ring]
    have hz := mul_ne_zero hZ1 hZ2
    exact mul_ne_zero (mul_ne_zero h2 hz) (mul_ne_zero (neg_ne_zero.mpr hsub) (pow_ne_zero _ hz))
  · rw [hlg, hX3, hV, hJ, hI, hRv, hHv, hU1, hX1]
    simp only [Affine.addX, curveOf]
    ring
  · rw [hlg, hX3, hV, hJ, hI, hRv, hHv, hU1, hX1, hS1, hY1]
    simp only [Affine.addY, Affine.negAddY, Affine.negY, Affine.addX, curveOf]
    ring

end Hacspec.Jac
