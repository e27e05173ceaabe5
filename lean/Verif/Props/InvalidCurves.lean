import Verif.Props.P256Orders

/-! # C88: the point arithmetic of P-256 on points that are not on the curve -/

namespace Hacspec.Props

open SecretInt NatMod Hacspec.AbstractInt Spec WeierstrassCurve

/-- The triple is a Jacobian representation of a point of the curve `y^2 = x^3 - 3 x + c`. -/
def RepresentsOn {c : ZMod P256.p} (j : Hacspec.P256.Jacobian) (P : (P256.curveOf c).Point) : Prop :=
  P256Felem j.x ∧ P256Felem j.y ∧ P256Felem j.z ∧
  match P with
  | .zero => (val j.z : ZMod P256.p) = 0
  | .some x y _ => (val j.z : ZMod P256.p) ≠ 0 ∧ (val j.x : ZMod P256.p) / (val j.z : ZMod P256.p) ^ 2 = x ∧
      (val j.y : ZMod P256.p) / (val j.z : ZMod P256.p) ^ 3 = y

theorem representsOn_iff {c : ZMod P256.p} {j : Hacspec.P256.Jacobian} {P : (P256.curveOf c).Point} :
    RepresentsOn j P ↔ Hacspec.P256.Repr (K := ZMod P256.p) j P := by
  constructor
  · rintro ⟨h1, h2, h3, h⟩
    refine ⟨_, _, _, ⟨h1.fe, h2.fe, h3.fe⟩, ?_⟩
    cases P with
    | zero => exact h
    | some x y hn =>
      obtain ⟨hz, hx, hy⟩ := h
      exact ⟨hz, (div_eq_iff (pow_ne_zero _ hz)).mp hx, (div_eq_iff (pow_ne_zero _ hz)).mp hy⟩
  · rintro ⟨X, Y, Z, ⟨h1, h2, h3⟩, h⟩
    refine ⟨h1.toReduced, h2.toReduced, h3.toReduced, ?_⟩
    have e1 := h1.val
    have e2 := h2.val
    have e3 := h3.val
    subst e1 e2 e3
    cases P with
    | zero => exact h
    | some x y hn =>
      obtain ⟨hz, hx, hy⟩ := h
      exact ⟨hz, (div_eq_iff (pow_ne_zero _ hz)).mpr hx, (div_eq_iff (pow_ne_zero _ hz)).mpr hy⟩

theorem val_eq_zero_iff {x : Canvas} (h : P256Felem x) : val x = 0 ↔ (val x : ZMod P256.p) = 0 := by
  have hlt : val x < P256.p := by rw [← Hacspec.P256.F_n]; exact h.lt
  refine ⟨fun e => by rw [e, Nat.cast_zero], fun e => val_cast_inj hlt (by decide +kernel) (by rw [e, Nat.cast_zero])⟩

theorem representsOn_zero {c : ZMod P256.p} {j : Hacspec.P256.Jacobian} {P : (P256.curveOf c).Point} (h : RepresentsOn j P) :
    val j.z = 0 ↔ P = 0 := by
  obtain ⟨-, -, hz, h⟩ := h
  rw [val_eq_zero_iff hz]
  cases P with
  | zero => exact ⟨fun _ => rfl, fun _ => h⟩
  | some x y hn => exact ⟨fun h0 => absurd h0 h.1, fun h0 => absurd h0 (Affine.Point.some_ne_zero _)⟩

/-- **C88.**  Doubling on all these curves: `b` does not occur in the code. -/
theorem C88_double {c : ZMod P256.p} (j : Hacspec.P256.Jacobian) (P : (P256.curveOf c).Point) (h : RepresentsOn j P) :
    ∃ r, Hacspec.P256.pointDouble j = .ok r ∧ RepresentsOn r (P + P) := by
  obtain ⟨r, h1, h2⟩ := Hacspec.P256.double_repr (representsOn_iff.mp h)
  exact ⟨r, h1, representsOn_iff.mpr h2⟩

/-- **C88.**  Addition. -/
theorem C88_add {c : ZMod P256.p} (j k : Hacspec.P256.Jacobian) (P Q : (P256.curveOf c).Point) (hj : RepresentsOn j P)
    (hk : RepresentsOn k Q) :
    (Hacspec.P256.pointAdd j k = panic ↔ P = Q ∧ P ≠ 0) ∧
    (¬ (P = Q ∧ P ≠ 0) → ∃ r, Hacspec.P256.pointAdd j k = .ok r ∧ RepresentsOn r (P + Q)) := by
  obtain ⟨h1, h2⟩ := Hacspec.P256.add_repr (representsOn_iff.mp hj) (representsOn_iff.mp hk)
  refine ⟨⟨fun hp => ?_, h1⟩, fun hn => ?_⟩
  · by_contra hn
    obtain ⟨r, hr, _⟩ := h2 hn
    rw [hr] at hp
    simp at hp
  · obtain ⟨r, h3, h4⟩ := h2 hn
    exact ⟨r, h3, representsOn_iff.mpr h4⟩

/-- **C88.**  The ladder multiplies every point of every curve `y^2 = x^3 - 3 x + c` by every scalar. -/
theorem C88_ladder {c : ZMod P256.p} (k : Canvas) (hk : Reach 256 false k) (j : Hacspec.P256.Jacobian)
    (P : (P256.curveOf c).Point) (hj : RepresentsOn j P) :
    ∃ r, Hacspec.P256.montgomeryLadder k j = .ok r ∧ RepresentsOn r (val k • P) := by
  obtain ⟨h1, h2⟩ := p256_bits hk
  obtain ⟨r, h3, h4⟩ := Hacspec.P256.ladder_repr h1 h2 (representsOn_iff.mp hj)
  exact ⟨r, h3, representsOn_iff.mpr h4⟩

/-- **C88.**  It returns the point at infinity exactly if the order of the point divides the scalar. -/
theorem C88_infinity {c : ZMod P256.p} (k : Canvas) (hk : Reach 256 false k) (j : Hacspec.P256.Jacobian)
    (P : (P256.curveOf c).Point) (hj : RepresentsOn j P) :
    ∃ r, Hacspec.P256.montgomeryLadder k j = .ok r ∧ (val r.z = 0 ↔ addOrderOf P ∣ val k) := by
  obtain ⟨r, h1, h2⟩ := C88_ladder k hk j P hj
  exact ⟨r, h1, by rw [representsOn_zero h2, addOrderOf_dvd_iff_nsmul_eq_zero]⟩

/-- **C88.**  Every triple of field elements with `Y ≠ 0` represents a point of one of the curves. -/
theorem C88_every_triple (j : Hacspec.P256.Jacobian) (hx : P256Felem j.x) (hy : P256Felem j.y) (hz : P256Felem j.z)
    (h0 : val j.y ≠ 0) : ∃ (c : ZMod P256.p) (P : (P256.curveOf c).Point), RepresentsOn j P := by
  by_cases hzz : (val j.z : ZMod P256.p) = 0
  · exact ⟨0, 0, hx, hy, hz, hzz⟩
  · obtain ⟨x, ex⟩ : ∃ x, (val j.x : ZMod P256.p) / (val j.z : ZMod P256.p) ^ 2 = x := ⟨_, rfl⟩
    obtain ⟨y, ey⟩ : ∃ y, (val j.y : ZMod P256.p) / (val j.z : ZMod P256.p) ^ 3 = y := ⟨_, rfl⟩
    have hy0 : y ≠ 0 := by
      rw [← ey]
      refine div_ne_zero ?_ (pow_ne_zero _ hzz)
      rwa [Ne, ← val_eq_zero_iff hy]
    have hn : (P256.curveOf (y ^ 2 - x ^ 3 + 3 * x)).Nonsingular x y := by
      rw [Affine.nonsingular_iff]
      refine ⟨Jac.equation.mpr (by ring), Or.inr ?_⟩
      rw [← Affine.negY, Jac.negY]
      intro h
      have : (2 : ZMod P256.p) * y = 0 := by linear_combination h
      exact hy0 ((mul_eq_zero.mp this).resolve_left Hacspec.P256.two_ne)
    exact ⟨_, .some x y hn, hx, hy, hz, hzz, ex, ey⟩

/-! ## Triples with `Y = 0` -/

/-- A triple for the point at infinity. -/
def IsInf (w : Hacspec.P256.Jacobian) : Prop := ∃ X Y : ZMod P256.p, Hacspec.P256.JFe w X Y 0

theorem double_inf {w : Hacspec.P256.Jacobian} (h : IsInf w) : ∃ r, Hacspec.P256.pointDouble w = .ok r ∧ IsInf r := by
  obtain ⟨X, Y, h⟩ := h
  obtain ⟨r, h1, h2⟩ := Hacspec.P256.pointDouble_ok h
  have e : (Y + 0) ^ 2 - (Y ^ 2 + 0 ^ 2) = 0 := by ring
  rw [e] at h2
  exact ⟨r, h1, _, _, h2⟩

theorem double_two {w : Hacspec.P256.Jacobian} {X Z : ZMod P256.p} (h : Hacspec.P256.JFe w X 0 Z) :
    ∃ r, Hacspec.P256.pointDouble w = .ok r ∧ IsInf r := by
  obtain ⟨r, h1, h2⟩ := Hacspec.P256.pointDouble_ok h
  have e : (0 + Z) ^ 2 - (0 ^ 2 + Z ^ 2) = 0 := by ring
  rw [e] at h2
  exact ⟨r, h1, _, _, h2⟩

theorem add_inf_left {w v : Hacspec.P256.Jacobian} (h : IsInf w) : Hacspec.P256.pointAdd w v = .ok v := by
  obtain ⟨X, Y, h⟩ := h
  rw [Hacspec.P256.pointAdd, Hacspec.P256.isPointAtInfinity_ok h, bind_ok, decide_eq_true rfl, if_pos rfl]

theorem add_inf_right {w v : Hacspec.P256.Jacobian} {X Y Z : ZMod P256.p} (hz : Z ≠ 0) (h : Hacspec.P256.JFe w X Y Z)
    (hv : IsInf v) : Hacspec.P256.pointAdd w v = .ok w := by
  obtain ⟨X', Y', hv⟩ := hv
  rw [Hacspec.P256.pointAdd, Hacspec.P256.isPointAtInfinity_ok h, bind_ok, decide_eq_false hz, if_neg (by decide),
    Hacspec.P256.isPointAtInfinity_ok hv, bind_ok, decide_eq_true rfl, if_pos rfl]

theorem ladder_two {k : Canvas} {n : Nat} (hn : n < 2 ^ 256) (hb : ∀ i, i < 256 → AbstractInt.bit k i = .ok (n.testBit i))
    {j : Hacspec.P256.Jacobian} {X Z : ZMod P256.p} (hz : Z ≠ 0) (hj : Hacspec.P256.JFe j X 0 Z) :
    ∃ r, Hacspec.P256.montgomeryLadder k j = .ok r ∧ (n % 2 = 0 → IsInf r) ∧ (n % 2 = 1 → r = j) := by
  obtain ⟨zero, e0, f0⟩ := Hacspec.P256.lit (K := ZMod P256.p) 0 0 (by simp)
  obtain ⟨one, e1, f1⟩ := Hacspec.P256.lit (K := ZMod P256.p) 1 1 (by simp)
  obtain ⟨w, hl, hw⟩ := loop_inv
    (fun i (w : Hacspec.P256.Jacobian × Hacspec.P256.Jacobian) =>
      (n / 2 ^ (256 - i) % 2 = 0 → IsInf w.1 ∧ w.2 = j) ∧ (n / 2 ^ (256 - i) % 2 = 1 → w.1 = j ∧ IsInf w.2))
    (n := 256) (body := Hacspec.P256.ladderStep k) (s := (⟨zero, one, zero⟩, j))
    (by
      rw [Nat.div_eq_of_lt (by simpa using hn)]
      exact ⟨fun _ => ⟨⟨0, 1, f0, f1, f0⟩, rfl⟩, fun h => absurd h (by decide)⟩)
    (by
      rintro i hi ⟨a, b⟩ ⟨ha, hb'⟩
      rw [Hacspec.P256.top_bits n i hi]
      generalize n / 2 ^ (256 - i) = m at ha hb'
      simp only [Hacspec.P256.ladderStep, hb (255 - i) (by omega), bind_ok]
      obtain ⟨d, d1, d2⟩ := double_two hj
      rcases Nat.mod_two_eq_zero_or_one m with hm | hm
      · obtain ⟨h1, h2⟩ := ha hm
        simp only at h1 h2
        subst h2
        cases n.testBit (255 - i) with
        | true =>
          simp only [if_true, d1, add_inf_right hz hj h1, bind_ok]
          exact ⟨_, rfl, fun h => absurd h (by simp only [Bool.toNat_true]; omega), fun _ => ⟨rfl, d2⟩⟩
        | false =>
          obtain ⟨e, d3, d4⟩ := double_inf h1
          simp only [Bool.false_eq_true, if_false, d3, add_inf_left h1, bind_ok]
          exact ⟨_, rfl, fun _ => ⟨d4, rfl⟩, fun h => absurd h (by simp only [Bool.toNat_false]; omega)⟩
      · obtain ⟨h1, h2⟩ := hb' hm
        simp only at h1 h2
        subst h1
        cases n.testBit (255 - i) with
        | true =>
          obtain ⟨e, d3, d4⟩ := double_inf h2
          simp only [if_true, d3, add_inf_left h2, bind_ok]
          exact ⟨_, rfl, fun h => absurd h (by simp only [Bool.toNat_true]; omega), fun _ => ⟨rfl, d4⟩⟩
        | false =>
          simp only [Bool.false_eq_true, if_false, d1, add_inf_right hz hj h2, bind_ok]
          exact ⟨_, rfl, fun _ => ⟨d2, rfl⟩, fun h => absurd h (by simp only [Bool.toNat_false]; omega)⟩)
  refine ⟨w.1, ?_, fun h => (hw.1 (by simpa using h)).1, fun h => (hw.2 (by simpa using h)).1⟩
  rw [Hacspec.P256.montgomeryLadder, e0, bind_ok, e1, bind_ok, bind_ok, hl, bind_ok]

/-- **C88.**  For a finite triple with `Y = 0` the ladder returns the triple itself for odd scalars and the point at infinity
for even ones: the result shows the lowest bit of the scalar and nothing else. -/
theorem C88_order_two (k : Canvas) (hk : Reach 256 false k) (j : Hacspec.P256.Jacobian) (hx : P256Felem j.x)
    (hy : P256Felem j.y) (hz : P256Felem j.z) (hy0 : val j.y = 0) (hz0 : val j.z ≠ 0) :
    ∃ r, Hacspec.P256.montgomeryLadder k j = .ok r ∧ (val k % 2 = 0 → val r.z = 0) ∧ (val k % 2 = 1 → r = j) := by
  obtain ⟨h1, h2⟩ := p256_bits hk
  have fy := hy.fe (K := ZMod P256.p)
  rw [(val_eq_zero_iff hy).mp hy0] at fy
  obtain ⟨r, h3, h4, h5⟩ := ladder_two h1 h2 (fun h => hz0 ((val_eq_zero_iff hz).mpr h)) ⟨hx.fe, fy, hz.fe⟩
  refine ⟨r, h3, fun h => ?_, h5⟩
  obtain ⟨X, Y, g⟩ := h4 h
  exact (val_eq_zero_iff g.z.toReduced).mpr g.z.val

/-- **C88.**  The ladder never panics, whatever field elements it is given. -/
theorem C88_total (k : Canvas) (hk : Reach 256 false k) (j : Hacspec.P256.Jacobian) (hx : P256Felem j.x)
    (hy : P256Felem j.y) (hz : P256Felem j.z) :
    ∃ r, Hacspec.P256.montgomeryLadder k j = .ok r ∧ P256Felem r.x ∧ P256Felem r.y ∧ P256Felem r.z := by
  by_cases hy0 : val j.y = 0
  · by_cases hz0 : val j.z = 0
    · obtain ⟨r, h1, h2⟩ := C88_ladder (c := 0) k hk j 0 ⟨hx, hy, hz, (val_eq_zero_iff hz).mp hz0⟩
      exact ⟨r, h1, h2.1, h2.2.1, h2.2.2.1⟩
    · have fy := hy.fe (K := ZMod P256.p)
      rw [(val_eq_zero_iff hy).mp hy0] at fy
      obtain ⟨h1, h2⟩ := p256_bits hk
      obtain ⟨r, h3, h4, h5⟩ := ladder_two h1 h2 (fun h => hz0 ((val_eq_zero_iff hz).mpr h)) ⟨hx.fe, fy, hz.fe⟩
      rcases Nat.mod_two_eq_zero_or_one (val k) with h | h
      · obtain ⟨X, Y, g⟩ := h4 h
        exact ⟨r, h3, g.x.toReduced, g.y.toReduced, g.z.toReduced⟩
      · rw [h5 h] at h3
        exact ⟨j, h3, hx, hy, hz⟩
  · obtain ⟨c, P, h⟩ := C88_every_triple j hx hy hz hy0
    obtain ⟨r, h1, h2⟩ := C88_ladder k hk j P h
    exact ⟨r, h1, h2.1, h2.2.1, h2.2.2.1⟩

/-! ## Order three -/

/-- A point whose tangent has a slope `l` with `l^2 = 3 x` has order three. -/
theorem order_three {c x y l : ZMod P256.p} (hn : (P256.curveOf c).Nonsingular x y) (hy : y ≠ 0) (h1 : l ^ 2 = 3 * x)
    (h2 : l * (2 * y) = 3 * x ^ 2 - 3) : addOrderOf (Affine.Point.some x y hn) = 3 := by
  have two := Hacspec.P256.two_ne (K := ZMod P256.p)
  have hne : y ≠ (P256.curveOf c).negY x y := by
    rw [Jac.negY]
    intro h
    have : (2 : ZMod P256.p) * y = 0 := by linear_combination h
    exact hy ((mul_eq_zero.mp this).resolve_left two)
  have h2y : y - -y ≠ 0 := by
    rw [sub_neg_eq_add, ← two_mul]; exact mul_ne_zero two hy
  have hl : (P256.curveOf c).slope x x y y = l := by
    rw [Affine.slope_of_Y_ne rfl hne, Jac.negY, div_eq_iff h2y]
    simp only [P256.curveOf]
    linear_combination -h2
  have hd : Affine.Point.some x y hn + Affine.Point.some x y hn = -Affine.Point.some x y hn := by
    rw [Affine.Point.add_self_of_Y_ne hne, Affine.Point.neg_some, Affine.Point.some.injEq, hl]
    have ex : (P256.curveOf c).addX x x l = x := by
      simp only [Affine.addX, P256.curveOf]
      linear_combination h1
    refine ⟨ex, ?_⟩
    rw [Affine.addY, Affine.negAddY, ex, Jac.negY, Jac.negY]
    ring
  haveI : Fact (Nat.Prime 3) := ⟨Nat.prime_three⟩
  refine addOrderOf_eq_prime ?_ (Affine.Point.some_ne_zero _)
  rw [show 3 = 1 + 1 + 1 from rfl, add_smul, add_smul, one_smul, hd, neg_add_cancel]

/-- **C88.**  With the triple `(3, 36, 3)`, the point `(1/3, 4/3)`, the result of the ladder is the point at infinity exactly
for the multiples of 3. -/
theorem C88_order_three (j : Hacspec.P256.Jacobian) (hx : P256Felem j.x) (hy : P256Felem j.y) (hz : P256Felem j.z)
    (hx3 : val j.x = 3) (hy36 : val j.y = 36) (hz3 : val j.z = 3) (k : Canvas) (hk : Reach 256 false k) :
    ∃ r, Hacspec.P256.montgomeryLadder k j = .ok r ∧ (val r.z = 0 ↔ 3 ∣ val k) := by
  have t3 : (3 : ZMod P256.p) ≠ 0 := by
    have : val j.z ≠ 0 := by omega
    rw [Ne, val_eq_zero_iff hz, hz3] at this
    exact_mod_cast this
  have t4 : (4 : ZMod P256.p) ≠ 0 := by
    have := Hacspec.P256.two_ne (K := ZMod P256.p)
    rw [show (4 : ZMod P256.p) = 2 * 2 by norm_num]
    exact mul_ne_zero this this
  have hn : (P256.curveOf ((4 / 3 : ZMod P256.p) ^ 2 - (1 / 3) ^ 3 + 3 * (1 / 3))).Nonsingular (1 / 3) (4 / 3) := by
    rw [Affine.nonsingular_iff]
    refine ⟨Jac.equation.mpr (by ring), Or.inr ?_⟩
    rw [← Affine.negY, Jac.negY]
    intro h
    have : (2 : ZMod P256.p) * (4 / 3) = 0 := by linear_combination h
    exact div_ne_zero t4 t3 ((mul_eq_zero.mp this).resolve_left Hacspec.P256.two_ne)
  obtain ⟨r, h1, h2⟩ := C88_infinity k hk j (.some _ _ hn) ⟨hx, hy, hz, by rw [hz3]; exact_mod_cast t3, by
    rw [hx3, hz3]; push_cast; field_simp, by rw [hy36, hz3]; push_cast; field_simp; norm_num⟩
  rw [order_three (l := -1) hn (div_ne_zero t4 t3) (by field_simp) (by field_simp; norm_num)] at h2
  exact ⟨r, h1, h2⟩

theorem p256_felem (n : Nat) (h : n < 2 ^ 255) : P256Felem (Hacspec.P256.F.enc n) ∧ val (Hacspec.P256.F.enc n) = n := by
  have hlt : n < Hacspec.P256.F.n := Nat.lt_of_lt_of_le h (by decide +kernel)
  have := fe_enc (K := ZMod P256.p) hlt
  exact ⟨this.toReduced, toBigUint_enc 256 n⟩

/-- The triples exist. -/
example : ∃ j : Hacspec.P256.Jacobian, P256Felem j.x ∧ P256Felem j.y ∧ P256Felem j.z ∧ val j.x = 3 ∧ val j.y = 36 ∧
    val j.z = 3 :=
  ⟨⟨Hacspec.P256.F.enc 3, Hacspec.P256.F.enc 36, Hacspec.P256.F.enc 3⟩, (p256_felem 3 (by decide)).1,
    (p256_felem 36 (by decide)).1, (p256_felem 3 (by decide)).1, (p256_felem 3 (by decide)).2, (p256_felem 36 (by decide)).2,
    (p256_felem 3 (by decide)).2⟩

/-- The point `(7, 0)`, on no curve of the standard. -/
example (k : Canvas) (hk : Reach 256 false k) : ∃ r, Hacspec.P256.montgomeryLadder k
    ⟨Hacspec.P256.F.enc 7, Hacspec.P256.F.enc 0, Hacspec.P256.F.enc 1⟩ = .ok r ∧ (val k % 2 = 0 → val r.z = 0) ∧
      (val k % 2 = 1 → r = ⟨Hacspec.P256.F.enc 7, Hacspec.P256.F.enc 0, Hacspec.P256.F.enc 1⟩) :=
  C88_order_two k hk _ (p256_felem 7 (by decide)).1 (p256_felem 0 (by decide)).1 (p256_felem 1 (by decide)).1
    (p256_felem 0 (by decide)).2 (by rw [(p256_felem 1 (by decide)).2]; decide)

end Hacspec.Props
