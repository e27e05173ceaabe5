import Verif.Lemmas.P256Order
import Verif.Props.P256s

/-! # C66, C67: the group in which the P-256 code computes has prime order -/

namespace Hacspec.Props

open SecretInt NatMod Hacspec.AbstractInt Spec WeierstrassCurve

/-- **C66.**  The curve has exactly `n` points, `n` is prime, and the base point generates the group. -/
theorem C66_order : Nat.card P256Point = Spec.P256.n ∧ Spec.P256.n.Prime ∧ addOrderOf baseP256 = Spec.P256.n ∧
    ∀ P : P256Point, ∃ k, k < Spec.P256.n ∧ k • baseP256 = P := by
  obtain ⟨h1, h2⟩ := Hacspec.P256.Order.order
  have hf : Finite P256Point := (Hacspec.P256.Order.card_le (q := P256.p) (by decide +kernel)).1
  refine ⟨h2, Hacspec.P256.Order.n_prime, h1, fun P => ?_⟩
  have htop : AddSubgroup.zmultiples baseP256 = ⊤ := by
    apply AddSubgroup.eq_top_of_card_eq
    rw [Nat.card_zmultiples, h1, h2]
  have hP : P ∈ AddSubgroup.zmultiples baseP256 := by rw [htop]; trivial
  rw [mem_zmultiples_iff_mem_range_addOrderOf, Finset.mem_image] at hP
  obtain ⟨k, hk, e⟩ := hP
  rw [Finset.mem_range, h1] at hk
  exact ⟨k, hk, e⟩

theorem p256_smul_eq_zero {P : P256Point} (hP : P ≠ 0) (k : Nat) : k • P = 0 ↔ Spec.P256.n ∣ k := by
  have hf : Finite P256Point := (Hacspec.P256.Order.card_le (q := P256.p) (by decide +kernel)).1
  haveI : Fact (Spec.P256.n.Prime) := ⟨C66_order.2.1⟩
  have h0 : Spec.P256.n • P = 0 := by rw [← C66_order.1]; exact card_nsmul_eq_zero'
  rw [← addOrderOf_dvd_iff_nsmul_eq_zero, addOrderOf_eq_prime h0 hP]

theorem p256_smul_eq {P : P256Point} (hP : P ≠ 0) (k l : Nat) : k • P = l • P ↔ k % Spec.P256.n = l % Spec.P256.n := by
  wlog h : l ≤ k generalizing k l
  · rw [eq_comm, this l k (by omega), eq_comm]
  obtain ⟨d, rfl⟩ := Nat.exists_eq_add_of_le h
  rw [add_nsmul, add_eq_left, p256_smul_eq_zero hP]
  constructor
  · rintro ⟨c, rfl⟩
    exact Nat.add_mul_mod_self_left _ _ _
  · intro h
    have := (Nat.modEq_iff_dvd' (Nat.le_add_right l d)).mp h.symm
    rwa [Nat.add_sub_cancel_left] at this

theorem p256_smul_neg {P : P256Point} (hP : P ≠ 0) (k l : Nat) : k • P = -(l • P) ↔ Spec.P256.n ∣ k + l := by
  rw [eq_neg_iff_add_eq_zero, ← add_nsmul, p256_smul_eq_zero hP]

theorem baseP256_ne : baseP256 ≠ 0 := Affine.Point.some_ne_zero _

/-- The coordinates of a point as `point_mul` returns them. -/
def Coords (Q : P256Point) (x y : Canvas) : Prop :=
  val x < P256.p ∧ val y < P256.p ∧
    match Q with
    | .zero => val x = 0 ∧ val y = 0
    | .some a b _ => (val x : ZMod P256.p) = a ∧ (val y : ZMod P256.p) = b

theorem val_cast_inj {m l : Nat} (hm : m < P256.p) (hl : l < P256.p) (h : (m : ZMod P256.p) = l) : m = l := by
  rw [← Hacspec.P256.F_n] at hm hl
  exact cast_inj hm hl h

/-- `(0, 0)` is not on the curve. -/
theorem p256_not_origin (h : (P256.curve (ZMod P256.p)).Nonsingular 0 0) : False := by
  have h1 := Jac.equation.mp h.1
  have h2 : ((Spec.P256.b : Nat) : ZMod P256.p) = 0 := by linear_combination -h1
  have h3 := (CharP.cast_eq_zero_iff (ZMod P256.p) P256.p _).mp h2
  exact absurd h3 (by decide +kernel)

theorem coords_inj {Q R : P256Point} {x y x' y' : Canvas} (hQ : Coords Q x y) (hR : Coords R x' y') :
    (val x = val x' ∧ val y = val y') ↔ Q = R := by
  obtain ⟨hx, hy, hQ⟩ := hQ
  obtain ⟨hx', hy', hR⟩ := hR
  constructor
  · rintro ⟨e1, e2⟩
    cases Q with
    | zero =>
      cases R with
      | zero => rfl
      | some a b hn =>
        obtain ⟨q1, q2⟩ := hQ
        obtain ⟨r1, r2⟩ := hR
        rw [← e1, q1, Nat.cast_zero] at r1
        rw [← e2, q2, Nat.cast_zero] at r2
        subst r1 r2
        exact (p256_not_origin hn).elim
    | some a b hn =>
      cases R with
      | zero =>
        obtain ⟨q1, q2⟩ := hQ
        obtain ⟨r1, r2⟩ := hR
        rw [e1, r1, Nat.cast_zero] at q1
        rw [e2, r2, Nat.cast_zero] at q2
        subst q1 q2
        exact (p256_not_origin hn).elim
      | some a' b' hn' =>
        obtain ⟨q1, q2⟩ := hQ
        obtain ⟨r1, r2⟩ := hR
        rw [e1, r1] at q1
        rw [e2, r2] at q2
        subst q1 q2
        rfl
  · rintro rfl
    cases Q with
    | zero => exact ⟨by rw [hQ.1, hR.1], by rw [hQ.2, hR.2]⟩
    | some a b hn =>
      exact ⟨val_cast_inj hx hx' (hQ.1.trans hR.1.symm), val_cast_inj hy hy' (hQ.2.trans hR.2.symm)⟩

theorem point_mul_coords (k : Canvas) (hk : Reach 256 false k) :
    ∃ x y, Hacspec.P256.pointMul k = .ok (x, y) ∧ Coords (val k • baseP256) x y := by
  obtain ⟨x, y, h1, h2, h3, h4⟩ := C55_point_mul k hk
  exact ⟨x, y, h1, h2, h3, h4⟩

theorem to_affine_coords {j : Hacspec.P256.Jacobian} {P : P256Point} (hj : Represents j P) :
    ∃ x y, Hacspec.P256.jacobianToAffine j = .ok (x, y) ∧ Coords P x y := by
  obtain ⟨x, y, h1, h2, h3, h4⟩ := C55_to_affine j P hj
  exact ⟨x, y, h1, h2, h3, by cases P <;> exact h4⟩

theorem represents_zero {j : Hacspec.P256.Jacobian} {P : P256Point} (h : Represents j P) : val j.z = 0 ↔ P = 0 := by
  obtain ⟨-, -, hz, h⟩ := h
  have hlt : val j.z < P256.p := by rw [← Hacspec.P256.F_n]; exact hz.lt
  cases P with
  | zero =>
    have h : (val j.z : ZMod P256.p) = 0 := h
    exact ⟨fun _ => rfl, fun _ => val_cast_inj hlt (by decide +kernel) (by rw [h, Nat.cast_zero])⟩
  | some x y hn =>
    refine ⟨fun h0 => ?_, fun h0 => absurd h0 (Affine.Point.some_ne_zero _)⟩
    exact absurd (by rw [h0, Nat.cast_zero]) h.1

/-- **C66.**  The ladder returns the point at infinity exactly for the multiples of `n`, whatever finite point it is given:
the curve has no points of small order. -/
theorem C66_ladder_infinity (k : Canvas) (hk : Reach 256 false k) (j : Hacspec.P256.Jacobian) (P : P256Point)
    (hj : Represents j P) (hP : P ≠ 0) :
    ∃ r, Hacspec.P256.montgomeryLadder k j = .ok r ∧ (val r.z = 0 ↔ Spec.P256.n ∣ val k) := by
  obtain ⟨r, h1, h2⟩ := C55_ladder k hk j P hj
  exact ⟨r, h1, by rw [represents_zero h2, p256_smul_eq_zero hP]⟩

/-- **C66.**  `point_mul(k)` is `(0, 0)` exactly for the multiples of `n`. -/
theorem C66_point_mul_zero (k : Canvas) (hk : Reach 256 false k) :
    ∃ x y, Hacspec.P256.pointMul k = .ok (x, y) ∧ ((val x = 0 ∧ val y = 0) ↔ Spec.P256.n ∣ val k) := by
  obtain ⟨x, y, h1, h2⟩ := point_mul_coords k hk
  refine ⟨x, y, h1, ?_⟩
  rw [← p256_smul_eq_zero baseP256_ne]
  have h0 : Coords (0 : P256Point) (AbstractInt.enc 256 0) (AbstractInt.enc 256 0) := by
    have : val (AbstractInt.enc 256 0) = 0 := toBigUint_enc 256 0
    refine ⟨?_, ?_, this, this⟩ <;> rw [this] <;> decide +kernel
  rw [← coords_inj h2 h0]
  have : val (AbstractInt.enc 256 0) = 0 := toBigUint_enc 256 0
  rw [this]

/-- **C66.**  Two scalars give the same point exactly when they are congruent modulo `n`. -/
theorem C66_point_mul_eq (k l : Canvas) (hk : Reach 256 false k) (hl : Reach 256 false l) :
    ∃ x y x' y', Hacspec.P256.pointMul k = .ok (x, y) ∧ Hacspec.P256.pointMul l = .ok (x', y') ∧
      ((val x = val x' ∧ val y = val y') ↔ val k % Spec.P256.n = val l % Spec.P256.n) := by
  obtain ⟨x, y, h1, h2⟩ := point_mul_coords k hk
  obtain ⟨x', y', h3, h4⟩ := point_mul_coords l hl
  exact ⟨x, y, x', y', h1, h3, by rw [coords_inj h2 h4, p256_smul_eq baseP256_ne]⟩

/-- **C66.**  Two scalars that are not multiples of `n` give the same `x`-coordinate exactly when they are congruent or
opposite modulo `n`. -/
theorem C66_point_mul_x (k l : Canvas) (hk : Reach 256 false k) (hl : Reach 256 false l) (hnk : ¬ Spec.P256.n ∣ val k)
    (hnl : ¬ Spec.P256.n ∣ val l) :
    ∃ x y x' y', Hacspec.P256.pointMul k = .ok (x, y) ∧ Hacspec.P256.pointMul l = .ok (x', y') ∧
      (val x = val x' ↔ val k % Spec.P256.n = val l % Spec.P256.n ∨ Spec.P256.n ∣ val k + val l) := by
  obtain ⟨x, y, h1, h2⟩ := point_mul_coords k hk
  obtain ⟨x', y', h3, h4⟩ := point_mul_coords l hl
  refine ⟨x, y, x', y', h1, h3, ?_⟩
  rw [← p256_smul_eq baseP256_ne, ← p256_smul_neg baseP256_ne]
  rw [← p256_smul_eq_zero baseP256_ne] at hnk hnl
  generalize val k • baseP256 = Q at *
  generalize val l • baseP256 = R at *
  cases Q with
  | zero => exact absurd rfl hnk
  | some a b hn =>
    cases R with
    | zero => exact absurd rfl hnl
    | some a' b' hn' =>
      obtain ⟨q0, -, q1, q2⟩ := h2
      obtain ⟨r0, -, r1, r2⟩ := h4
      rw [Affine.Point.neg_some]
      constructor
      · intro e
        rw [e, r1] at q1
        subst q1
        rcases Affine.Y_eq_of_X_eq hn.1 hn'.1 rfl with h | h
        · subst h; exact Or.inl rfl
        · subst h; exact Or.inr rfl
      · intro h
        have : a = a' := by
          rcases h with h | h
          · exact ((Affine.Point.some.injEq ..).mp h).1
          · exact ((Affine.Point.some.injEq ..).mp h).1
        subst this
        exact val_cast_inj q0 r0 (q1.trans r1.symm)

/-- **C66.**  Every solution of the curve equation is `point_mul(k)` for exactly one `k` below `n`. -/
theorem C66_point_mul_onto (a b : ZMod P256.p) (h : b ^ 2 = a ^ 3 - 3 * a + ((Spec.P256.b : Nat) : ZMod P256.p)) :
    ∃! k, k < Spec.P256.n ∧ ∃ x y, Hacspec.P256.pointMul (AbstractInt.enc 256 k) = .ok (x, y) ∧
      (val x : ZMod P256.p) = a ∧ (val y : ZMod P256.p) = b := by
  have hn : (P256.curve (ZMod P256.p)).Nonsingular a b := by
    rw [Affine.nonsingular_iff]
    refine ⟨Jac.equation.mpr h, ?_⟩
    by_contra hc
    push_neg at hc
    have hb : b = 0 := by
      have h2 := hc.2
      rw [← Affine.negY, Jac.negY] at h2
      have : (2 : ZMod P256.p) * b = 0 := by linear_combination h2
      exact (mul_eq_zero.mp this).resolve_left Hacspec.P256.two_ne
    exact Hacspec.P256.Order.no_root (q := P256.p) (i := 256) (by decide +kernel) (by decide +kernel) (by decide +kernel)
      (by rw [Hacspec.P256.Order.p_eq]; exact Hacspec.P256.Order.checkT_ok) (ZMod.pow_card a) (by rw [← h, hb]; ring)
  have hreach : ∀ k, k < Spec.P256.n → Reach 256 false (AbstractInt.enc 256 k) ∧ val (AbstractInt.enc 256 k) = k := by
    intro k hk
    have hk2 : k + 1 < 2 ^ 256 := Nat.lt_of_le_of_lt hk (by decide +kernel)
    exact ⟨Reach.ofBig k _ (AbstractInt.fromBig_ok (inRange_nat hk2)), toBigUint_enc 256 k⟩
  obtain ⟨k, hk, e⟩ := C66_order.2.2.2 (.some a b hn)
  refine ⟨k, ⟨hk, ?_⟩, ?_⟩
  · obtain ⟨h1, h2⟩ := hreach k hk
    obtain ⟨x, y, h3, -, -, h4⟩ := point_mul_coords _ h1
    rw [h2, e] at h4
    exact ⟨x, y, h3, h4⟩
  · rintro l ⟨hl, x, y, h3, h4, h5⟩
    obtain ⟨h1, h2⟩ := hreach l hl
    obtain ⟨x', y', h6, h7, h8, h9⟩ := point_mul_coords _ h1
    rw [h3] at h6
    obtain ⟨rfl, rfl⟩ := Prod.mk.inj (Except.ok.inj h6)
    rw [h2] at h9
    have : l • baseP256 = .some a b hn := by
      generalize l • baseP256 = Q at h9
      cases Q with
      | zero =>
        rw [h9.1, Nat.cast_zero] at h4
        rw [h9.2, Nat.cast_zero] at h5
        subst h4 h5
        exact (p256_not_origin hn).elim
      | some c d hn' =>
        have e1 := h9.1.symm.trans h4
        have e2 := h9.2.symm.trans h5
        subst e1 e2
        rfl
    rw [← e, p256_smul_eq baseP256_ne, Nat.mod_eq_of_lt hl, Nat.mod_eq_of_lt hk] at this
    exact this

/-! ## C67 -/

/-- **C67.**  Diffie-Hellman: multiplying any point by `a` and then by `b` gives the affine coordinates one gets by multiplying
by `b` and then by `a`, and no step panics. -/
theorem C67_exchange (a b : Canvas) (ha : Reach 256 false a) (hb : Reach 256 false b) (j : Hacspec.P256.Jacobian)
    (P : P256Point) (hj : Represents j P) :
    ∃ ja jb jab jba x y x' y', Hacspec.P256.montgomeryLadder a j = .ok ja ∧ Hacspec.P256.montgomeryLadder b j = .ok jb ∧
      Hacspec.P256.montgomeryLadder b ja = .ok jab ∧ Hacspec.P256.montgomeryLadder a jb = .ok jba ∧
      Hacspec.P256.jacobianToAffine jab = .ok (x, y) ∧ Hacspec.P256.jacobianToAffine jba = .ok (x', y') ∧
      val x = val x' ∧ val y = val y' := by
  obtain ⟨ja, h1, h2⟩ := C55_ladder a ha j P hj
  obtain ⟨jb, h3, h4⟩ := C55_ladder b hb j P hj
  obtain ⟨jab, h5, h6⟩ := C55_ladder b hb ja _ h2
  obtain ⟨jba, h7, h8⟩ := C55_ladder a ha jb _ h4
  obtain ⟨x, y, h9, h10⟩ := to_affine_coords h6
  have e : val a • val b • P = val b • val a • P := smul_comm _ _ _
  rw [e] at h8
  obtain ⟨x', y', h11, h12⟩ := to_affine_coords h8
  obtain ⟨e1, e2⟩ := (coords_inj h10 h12).mpr rfl
  exact ⟨ja, jb, jab, jba, x, y, x', y', h1, h3, h5, h7, h9, h11, e1, e2⟩

/-- **C67.**  The shared point is the point at infinity only if one of the scalars is a multiple of `n`. -/
theorem C67_contributory (a b : Canvas) (ha : Reach 256 false a) (hb : Reach 256 false b) (j : Hacspec.P256.Jacobian)
    (P : P256Point) (hj : Represents j P) (hP : P ≠ 0) :
    ∃ ja jab, Hacspec.P256.montgomeryLadder a j = .ok ja ∧ Hacspec.P256.montgomeryLadder b ja = .ok jab ∧
      (val jab.z = 0 ↔ Spec.P256.n ∣ val a ∨ Spec.P256.n ∣ val b) := by
  obtain ⟨ja, h1, h2⟩ := C55_ladder a ha j P hj
  obtain ⟨jab, h5, h6⟩ := C55_ladder b hb ja _ h2
  refine ⟨ja, jab, h1, h5, ?_⟩
  rw [represents_zero h6, ← mul_nsmul, p256_smul_eq_zero hP, C66_order.2.1.dvd_mul]

/-- The scalars 5 and `n + 5` give the same point, and `n` gives `(0, 0)`. -/
example : ∃ k l, Reach 256 false k ∧ Reach 256 false l ∧ val k = 5 ∧ val l = Spec.P256.n + 5 ∧
    val k % Spec.P256.n = val l % Spec.P256.n := by
  have h : ∀ m : Nat, m + 1 < 2 ^ 256 → Reach 256 false (AbstractInt.enc 256 m) ∧ val (AbstractInt.enc 256 m) = m :=
    fun m hm => ⟨Reach.ofBig m _ (AbstractInt.fromBig_ok (inRange_nat hm)), toBigUint_enc 256 m⟩
  obtain ⟨h1, h2⟩ := h 5 (by decide)
  obtain ⟨h3, h4⟩ := h (Spec.P256.n + 5) (by decide +kernel)
  exact ⟨_, _, h1, h3, h2, h4, by rw [h2, h4]; decide +kernel⟩

end Hacspec.Props
