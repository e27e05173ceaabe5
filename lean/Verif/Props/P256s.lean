import Verif.Lemmas.P256
import Verif.Props.NatMods

/-! # C54, C55: P-256 -/

namespace Hacspec.Props

open SecretInt NatMod Hacspec.AbstractInt Spec WeierstrassCurve

instance factPrimeP256 : Fact P256.p.Prime := ⟨Primes.prime_p256⟩

/-- The group of the curve over the prime field. -/
abbrev P256Point := (P256.curve (ZMod P256.p)).Point

/-- A field element as it occurs in the code: reduced (every value obtainable through the API is, see
`p256_operand_reduced`). -/
abbrev P256Felem (c : Canvas) : Prop := Reduced Hacspec.P256.F c

theorem p256_operand_reduced {c : Canvas} (h : Operand Hacspec.P256.F c) : P256Felem c := by
  obtain ⟨h1, h2⟩ := reach_proper Hacspec.P256.F_WF h
  refine ⟨toBig_of_proper h1, ?_⟩
  rcases h2 with h2 | ⟨y, _, hy, _⟩
  · exact h2
  · have := y.isLt
    have := Hacspec.P256.F_big
    omega

/-- The triple `(X, Y, Z)` is a Jacobian representation of the point: `Z = 0` for the point at infinity, and
`(X / Z^2, Y / Z^3)` are the coordinates of a finite point. -/
def Represents (j : Hacspec.P256.Jacobian) (P : P256Point) : Prop :=
  P256Felem j.x ∧ P256Felem j.y ∧ P256Felem j.z ∧
  match P with
  | .zero => (val j.z : ZMod P256.p) = 0
  | .some x y _ => (val j.z : ZMod P256.p) ≠ 0 ∧ (val j.x : ZMod P256.p) / (val j.z : ZMod P256.p) ^ 2 = x ∧
      (val j.y : ZMod P256.p) / (val j.z : ZMod P256.p) ^ 3 = y

instance charP256 : CharP (ZMod P256.p) Hacspec.P256.F.n := by rw [Hacspec.P256.F_n]; infer_instance

theorem represents_iff {j : Hacspec.P256.Jacobian} {P : P256Point} :
    Represents j P ↔ Hacspec.P256.Repr (K := ZMod P256.p) j P := by
  constructor
  · rintro ⟨h1, h2, h3, h⟩
    refine ⟨_, _, _, ⟨h1.fe, h2.fe, h3.fe⟩, ?_⟩
    cases P with
    | zero => exact h
    | some x y hn =>
      obtain ⟨hz, hx, hy⟩ := h
      exact ⟨hz, (div_eq_iff (pow_ne_zero _ hz)).mp hx, (div_eq_iff (pow_ne_zero _ hz)).mp hy⟩
  · rintro ⟨X, Y, Z, ⟨h1, h2, h3⟩, h⟩
    refine ⟨h1.toReduced, h2.toReduced, h3.toReduced, ?_⟩
    have e1 := h1.val
    have e2 := h2.val
    have e3 := h3.val
    subst e1 e2 e3
    cases P with
    | zero => exact h
    | some x y hn =>
      obtain ⟨hz, hx, hy⟩ := h
      exact ⟨hz, (div_eq_iff (pow_ne_zero _ hz)).mpr hx, (div_eq_iff (pow_ne_zero _ hz)).mpr hy⟩

/-- Every point has representations: here with any `Z ≠ 0`. -/
theorem C54_representable (x y : ZMod P256.p) (hn : (P256.curve (ZMod P256.p)).Nonsingular x y) (z : ZMod P256.p)
    (hz : z ≠ 0) : ∃ j, Represents j (.some x y hn) ∧ (val j.z : ZMod P256.p) = z := by
  have hlt : ∀ a : ZMod P256.p, a.val < Hacspec.P256.F.n := by
    intro a; rw [Hacspec.P256.F_n]; exact ZMod.val_lt a
  have f : ∀ a : ZMod P256.p, Fe Hacspec.P256.F (Hacspec.P256.F.enc a.val) a := by
    intro a
    have := fe_enc (K := ZMod P256.p) (hlt a)
    rwa [ZMod.natCast_zmod_val] at this
  refine ⟨⟨_, _, _⟩, represents_iff.mpr ⟨_, _, _, ⟨f (x * z ^ 2), f (y * z ^ 3), f z⟩, hz, rfl, rfl⟩, (f z).val⟩

/-- **C54.**  `point_double` never panics and represents `P + P`, for every point and every representation of it. -/
theorem C54_double (j : Hacspec.P256.Jacobian) (P : P256Point) (h : Represents j P) :
    ∃ r, Hacspec.P256.pointDouble j = .ok r ∧ Represents r (P + P) := by
  obtain ⟨r, h1, h2⟩ := Hacspec.P256.double_repr (represents_iff.mp h)
  exact ⟨r, h1, represents_iff.mpr h2⟩

/-- **C54.**  `point_add` represents the sum, for all points (the point at infinity and opposite points included) and all
their representations, unless both arguments are the same finite point: then, and only then, it panics. -/
theorem C54_add (j k : Hacspec.P256.Jacobian) (P Q : P256Point) (hj : Represents j P) (hk : Represents k Q) :
    (Hacspec.P256.pointAdd j k = panic ↔ P = Q ∧ P ≠ 0) ∧
    (¬ (P = Q ∧ P ≠ 0) → ∃ r, Hacspec.P256.pointAdd j k = .ok r ∧ Represents r (P + Q)) := by
  obtain ⟨h1, h2⟩ := Hacspec.P256.add_repr (represents_iff.mp hj) (represents_iff.mp hk)
  refine ⟨⟨fun hp => ?_, h1⟩, fun hn => ?_⟩
  · by_contra hn
    obtain ⟨r, hr, _⟩ := h2 hn
    rw [hr] at hp
    simp at hp
  · obtain ⟨r, h3, h4⟩ := h2 hn
    exact ⟨r, h3, represents_iff.mpr h4⟩

/-- The base point of FIPS 186-4. -/
abbrev baseP256 : P256Point := Hacspec.P256.G

/-- The coordinates of the base point are the published ones. -/
theorem C54_base_point : baseP256 = .some ((Spec.P256.gx : Nat) : ZMod P256.p) ((Spec.P256.gy : Nat) : ZMod P256.p)
    Hacspec.P256.base_nonsingular := rfl

example : ∃ j r, Represents j baseP256 ∧ (val j.z : ZMod P256.p) = 5 ∧ Hacspec.P256.pointDouble j = .ok r ∧
    Represents r (baseP256 + baseP256) := by
  obtain ⟨j, h1, h2⟩ := C54_representable _ _ (Hacspec.P256.base_nonsingular (K := ZMod P256.p)) 5 (by decide +kernel)
  obtain ⟨r, h3, h4⟩ := C54_double j baseP256 h1
  exact ⟨j, r, h1, h2, h3, h4⟩

/-- Adding a finite point to itself panics. -/
example : ∃ j, Represents j baseP256 ∧ Hacspec.P256.pointAdd j j = panic := by
  obtain ⟨j, h1, _⟩ := C54_representable _ _ (Hacspec.P256.base_nonsingular (K := ZMod P256.p)) 1 one_ne_zero
  exact ⟨j, h1, (C54_add j j _ _ h1 h1).1.mpr ⟨rfl, Affine.Point.some_ne_zero _⟩⟩

/-! ## C55 -/

theorem p256_bits {k : Canvas} (hk : Reach 256 false k) :
    val k < 2 ^ 256 ∧ ∀ i, i < 256 → AbstractInt.bit k i = .ok ((val k).testBit i) := by
  have hp := proper_of_reach (by decide) hk
  have hv := toBig_of_proper hp
  have h1 := hp.2.1.1
  refine ⟨?_, fun i hi => C22_bit_nat (by decide) hk i _ hv (by omega)⟩
  rw [hv] at h1
  have hc := cast_two_pow 256
  unfold val
  omega

/-- **C55.**  The ladder multiplies every point by every scalar, without panicking. -/
theorem C55_ladder (k : Canvas) (hk : Reach 256 false k) (j : Hacspec.P256.Jacobian) (P : P256Point)
    (hj : Represents j P) : ∃ r, Hacspec.P256.montgomeryLadder k j = .ok r ∧ Represents r (val k • P) := by
  obtain ⟨h1, h2⟩ := p256_bits hk
  obtain ⟨r, h3, h4⟩ := Hacspec.P256.ladder_repr h1 h2 (represents_iff.mp hj)
  exact ⟨r, h3, represents_iff.mpr h4⟩

/-- **C55.**  Conversion to affine coordinates, `(0, 0)` for the point at infinity. -/
theorem C55_to_affine (j : Hacspec.P256.Jacobian) (P : P256Point) (hj : Represents j P) :
    ∃ x y, Hacspec.P256.jacobianToAffine j = .ok (x, y) ∧ val x < P256.p ∧ val y < P256.p ∧
      match P with
      | .zero => val x = 0 ∧ val y = 0
      | .some a b _ => (val x : ZMod P256.p) = a ∧ (val y : ZMod P256.p) = b := by
  obtain ⟨x, y, h1, h2, h3⟩ := Hacspec.P256.toAffine_ok (represents_iff.mp hj)
  refine ⟨x, y, h1, by rw [← Hacspec.P256.F_n]; exact h2.lt, by rw [← Hacspec.P256.F_n]; exact h3.lt, ?_⟩
  cases P with
  | zero =>
    refine ⟨cast_inj (K := ZMod P256.p) h2.lt (Nat.lt_trans (by norm_num) Hacspec.P256.F_two) ?_,
      cast_inj (K := ZMod P256.p) h3.lt (Nat.lt_trans (by norm_num) Hacspec.P256.F_two) ?_⟩
    · rw [h2.val, Nat.cast_zero]; rfl
    · rw [h3.val, Nat.cast_zero]; rfl
  | some a b hn => exact ⟨h2.val, h3.val⟩

/-- **C55.**  `point_mul(k)` never panics and returns the affine coordinates of `k G`, `(0, 0)` for the point at infinity,
for every scalar `k`. -/
theorem C55_point_mul (k : Canvas) (hk : Reach 256 false k) :
    ∃ x y, Hacspec.P256.pointMul k = .ok (x, y) ∧ val x < P256.p ∧ val y < P256.p ∧
      match val k • baseP256 with
      | .zero => val x = 0 ∧ val y = 0
      | .some a b _ => (val x : ZMod P256.p) = a ∧ (val y : ZMod P256.p) = b := by
  obtain ⟨h1, h2⟩ := p256_bits hk
  obtain ⟨x, y, h3, h4, h5⟩ := Hacspec.P256.pointMul_ok (K := ZMod P256.p) h1 h2
  refine ⟨x, y, h3, by rw [← Hacspec.P256.F_n]; exact h4.lt, by rw [← Hacspec.P256.F_n]; exact h5.lt, ?_⟩
  generalize val k • (Hacspec.P256.G : P256Point) = Q at h4 h5
  cases Q with
  | zero =>
    refine ⟨cast_inj (K := ZMod P256.p) h4.lt (Nat.lt_trans (by norm_num) Hacspec.P256.F_two) ?_,
      cast_inj (K := ZMod P256.p) h5.lt (Nat.lt_trans (by norm_num) Hacspec.P256.F_two) ?_⟩
    · rw [h4.val, Nat.cast_zero]; rfl
    · rw [h5.val, Nat.cast_zero]; rfl
  | some a b hn => exact ⟨h4.val, h5.val⟩

example : ∃ k, Reach 256 false k ∧ val k = 5 := by
  refine ⟨AbstractInt.enc 256 5, ?_, toBigUint_enc 256 5⟩
  exact Reach.ofBig 5 _ (AbstractInt.fromBig_ok (by decide))

end Hacspec.Props
