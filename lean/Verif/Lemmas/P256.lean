import Verif.Model.P256
import Verif.Lemmas.Field
import Verif.Lemmas.Jacobian
import Verif.Lemmas.Primes

/-! # Lemmas about the P-256 model -/

namespace Hacspec.P256

open SecretInt NatMod AbstractInt WeierstrassCurve

theorem F_WF : F.WF := by decide +kernel
theorem F_n : F.n = Spec.P256.p := by decide +kernel
theorem F_prime : F.n.Prime := by rw [F_n]; exact Primes.prime_p256
theorem F_big : 2 ^ 128 ≤ F.n := by decide +kernel
theorem F_bits : 2 ≤ F.bits := by decide
theorem F_two : 2 < F.n := by decide +kernel
theorem lit_lt (n : BitVec 128) : n.toNat < F.n := Nat.lt_of_lt_of_le n.isLt F_big

variable {K : Type} [Field K] [CharP K F.n] {c : K}

theorem two_ne : (2 : K) ≠ 0 := by
  intro h
  have h' : ((2 : Nat) : K) = 0 := by exact_mod_cast h
  have := (CharP.cast_eq_zero_iff K F.n 2).mp h'
  exact absurd this (by decide +kernel)

omit [CharP K F.n] in
theorem lit (n : BitVec 128) (a : K) (h : (n.toNat : K) = a) : ∃ r, fromLiteral F n = .ok r ∧ Fe F r a := by
  subst h; exact fe_literal F_WF n (lit_lt n)

/-- The coordinates of the triple. -/
structure JFe (p : Jacobian) (X Y Z : K) : Prop where
  x : Fe F p.x X
  y : Fe F p.y Y
  z : Fe F p.z Z

theorem pointDouble_ok {p : Jacobian} {X Y Z : K} (h : JFe p X Y Z) :
    ∃ r, pointDouble p = .ok r ∧ JFe r ((3 * ((X - Z ^ 2) * (X + Z ^ 2))) ^ 2 - 8 * (X * Y ^ 2))
      (3 * ((X - Z ^ 2) * (X + Z ^ 2)) *
        (4 * (X * Y ^ 2) - ((3 * ((X - Z ^ 2) * (X + Z ^ 2))) ^ 2 - 8 * (X * Y ^ 2))) - 8 * (Y ^ 2 * Y ^ 2))
      ((Y + Z) ^ 2 - (Y ^ 2 + Z ^ 2)) := by
  have W := F_WF
  have B := F_bits
  obtain ⟨delta, e1, f1⟩ := fe_pow2 W B h.z
  obtain ⟨gamma, e2, f2⟩ := fe_pow2 W B h.y
  obtain ⟨beta, e3, f3⟩ := fe_mul W h.x f2
  obtain ⟨alpha1, e4, f4⟩ := fe_sub W h.x f1
  obtain ⟨alpha2, e5, f5⟩ := fe_add W h.x f1
  obtain ⟨three, e6, f6⟩ := lit (K := K) 3 3 (by simp)
  obtain ⟨t1, e7, f7⟩ := fe_mul W f4 f5
  obtain ⟨alpha, e8, f8⟩ := fe_mul W f6 f7
  obtain ⟨t2, e9, f9⟩ := fe_pow2 W B f8
  obtain ⟨eight, e10, f10⟩ := lit (K := K) 8 8 (by simp)
  obtain ⟨u, e11, f11⟩ := fe_mul W f10 f3
  obtain ⟨x3, e12, f12⟩ := fe_sub W f9 f11
  obtain ⟨t3, e13, f13⟩ := fe_add W h.y h.z
  obtain ⟨z3_, e14, f14⟩ := fe_pow2 W B f13
  obtain ⟨t4, e15, f15⟩ := fe_add W f2 f1
  obtain ⟨z3, e16, f16⟩ := fe_sub W f14 f15
  obtain ⟨four, e17, f17⟩ := lit (K := K) 4 4 (by simp)
  obtain ⟨t5, e18, f18⟩ := fe_mul W f17 f3
  obtain ⟨y31, e19, f19⟩ := fe_sub W f18 f12
  obtain ⟨t6, e20, f20⟩ := fe_mul W f2 f2
  obtain ⟨y32, e21, f21⟩ := fe_mul W f10 f20
  obtain ⟨t7, e22, f22⟩ := fe_mul W f8 f19
  obtain ⟨y3, e23, f23⟩ := fe_sub W f22 f21
  refine ⟨⟨x3, y3, z3⟩, ?_, f12, f23, f16⟩
  unfold pointDouble
  rw [e1, bind_ok, e2, bind_ok, e3, bind_ok, e4, bind_ok, e5, bind_ok, e6, bind_ok, e7, bind_ok, e8, bind_ok,
    e9, bind_ok, e10, bind_ok, e11, bind_ok, e12, bind_ok, e13, bind_ok, e14, bind_ok, e15, bind_ok, e16, bind_ok,
    e17, bind_ok, e18, bind_ok, e19, bind_ok, bind_ok, e20, bind_ok, e21, bind_ok, e22, bind_ok, e23, bind_ok]

theorem isPointAtInfinity_ok {p : Jacobian} {X Y Z : K} [DecidableEq K] (h : JFe p X Y Z) :
    isPointAtInfinity p = .ok (decide (Z = 0)) := by
  obtain ⟨zero, e, f⟩ := lit (K := K) 0 0 (by simp)
  rw [isPointAtInfinity, e, bind_ok]
  congr 1
  rw [Bool.eq_iff_iff, fe_eq h.z f, decide_eq_true_iff]

theorem addGeneral_ok {p1 p2 u1 u2 s1 s2 : Canvas} {z1 z2 : Canvas} {Z1 Z2 Z11 Z22 U1 U2 S1 S2 : K}
    (hz1 : Fe F z1 Z1) (hz2 : Fe F z2 Z2) (h11 : Fe F p1 Z11) (h22 : Fe F p2 Z22) (hu1 : Fe F u1 U1) (hu2 : Fe F u2 U2)
    (hs1 : Fe F s1 S1) (hs2 : Fe F s2 S2) :
    ∃ r, ∃ H I J R V X3 : K, addGeneral z1 z2 p1 p2 u1 u2 s1 s2 = .ok r ∧ H = U2 - U1 ∧ I = (2 * H) ^ 2 ∧ J = H * I ∧
      R = 2 * (S2 - S1) ∧ V = U1 * I ∧ X3 = R ^ 2 - J - 2 * V ∧
      JFe r X3 (R * (V - X3) - 2 * S1 * J) (((Z1 + Z2) ^ 2 - (Z11 + Z22)) * H) := by
  have W := F_WF
  have B := F_bits
  obtain ⟨h, e1, f1⟩ := fe_sub W hu2 hu1
  obtain ⟨two, e2, f2⟩ := lit (K := K) 2 2 (by simp)
  obtain ⟨t1, e3, f3⟩ := fe_mul W f2 f1
  obtain ⟨i, e4, f4⟩ := fe_pow2 W B f3
  obtain ⟨j, e5, f5⟩ := fe_mul W f1 f4
  obtain ⟨t2, e6, f6⟩ := fe_sub W hs2 hs1
  obtain ⟨r, e7, f7⟩ := fe_mul W f2 f6
  obtain ⟨v, e8, f8⟩ := fe_mul W hu1 f4
  obtain ⟨x31, e9, f9⟩ := fe_mul W f2 f8
  obtain ⟨t3, e10, f10⟩ := fe_pow2 W B f7
  obtain ⟨x32, e11, f11⟩ := fe_sub W f10 f5
  obtain ⟨x3, e12, f12⟩ := fe_sub W f11 f9
  obtain ⟨t4, e13, f13⟩ := fe_mul W f2 hs1
  obtain ⟨y31, e14, f14⟩ := fe_mul W f13 f5
  obtain ⟨t5, e15, f15⟩ := fe_sub W f8 f12
  obtain ⟨y32, e16, f16⟩ := fe_mul W f7 f15
  obtain ⟨y3, e17, f17⟩ := fe_sub W f16 f14
  obtain ⟨t6, e18, f18⟩ := fe_add W hz1 hz2
  obtain ⟨z3_, e19, f19⟩ := fe_pow2 W B f18
  obtain ⟨t7, e20, f20⟩ := fe_add W h11 h22
  obtain ⟨t8, e21, f21⟩ := fe_sub W f19 f20
  obtain ⟨z3, e22, f22⟩ := fe_mul W f21 f1
  refine ⟨⟨x3, y3, z3⟩, _, _, _, _, _, _, ?_, rfl, rfl, rfl, rfl, rfl, rfl, f12, f17, f22⟩
  unfold addGeneral
  rw [e1, bind_ok, e2, bind_ok, e3, bind_ok, e4, bind_ok, e5, bind_ok, bind_ok, e6, bind_ok, e7, bind_ok, e8, bind_ok,
    bind_ok, e9, bind_ok, e10, bind_ok, e11, bind_ok, e12, bind_ok, bind_ok, e13, bind_ok, e14, bind_ok, e15, bind_ok,
    e16, bind_ok, e17, bind_ok, e18, bind_ok, e19, bind_ok, e20, bind_ok, e21, bind_ok, e22, bind_ok]

/-- The triple is a representation of the point. -/
def Repr (p : Jacobian) (P : (Spec.P256.curveOf c).Point) : Prop := ∃ X Y Z : K, JFe p X Y Z ∧ Jac.Rep P X Y Z

variable [DecidableEq K]

theorem repr_zero {zero one zero' : Canvas} (h0 : Fe F zero (0 : K)) (h1 : Fe F one (1 : K)) (h0' : Fe F zero' (0 : K)) :
    Repr (K := K) (c := c) ⟨zero, one, zero'⟩ 0 := ⟨0, 1, 0, ⟨h0, h1, h0'⟩, rfl⟩

theorem double_repr {p : Jacobian} {P : (Spec.P256.curveOf c).Point} (h : Repr p P) :
    ∃ r, pointDouble p = .ok r ∧ Repr r (P + P) := by
  obtain ⟨X, Y, Z, hf, hr⟩ := h
  obtain ⟨r, e, f⟩ := pointDouble_ok hf
  exact ⟨r, e, _, _, _, f, Jac.rep_double two_ne hr⟩

theorem add_repr {p q : Jacobian} {P Q : (Spec.P256.curveOf c).Point} (hp : Repr p P) (hq : Repr q Q) :
    (P = Q ∧ P ≠ 0 → pointAdd p q = panic) ∧
    (¬ (P = Q ∧ P ≠ 0) → ∃ r, pointAdd p q = .ok r ∧ Repr r (P + Q)) := by
  have hp0 := hp
  have hq0 := hq
  obtain ⟨X1, Y1, Z1, fp, rp⟩ := hp
  obtain ⟨X2, Y2, Z2, fq, rq⟩ := hq
  have W := F_WF
  have B := F_bits
  rw [pointAdd, isPointAtInfinity_ok fp, bind_ok]
  cases P with
  | zero =>
    have hZ : Z1 = 0 := rp
    simp only [hZ, decide_true, if_true]
    refine ⟨fun h => absurd rfl h.2, fun _ => ⟨q, rfl, ?_⟩⟩
    change Repr q (0 + Q)
    rwa [zero_add]
  | some x1 y1 hn1 =>
    have hZ1 : Z1 ≠ 0 := rp.1
    simp only [hZ1, decide_false, Bool.false_eq_true, if_false]
    rw [isPointAtInfinity_ok fq, bind_ok]
    cases Q with
    | zero =>
      have hZ : Z2 = 0 := rq
      simp only [hZ, decide_true, if_true]
      refine ⟨fun h => ?_, fun _ => ⟨p, rfl, ?_⟩⟩
      · exact absurd h.1 (by simp)
      · change Repr p (_ + 0)
        rwa [add_zero]
    | some x2 y2 hn2 =>
      have hZ2 : Z2 ≠ 0 := rq.1
      simp only [hZ2, decide_false, Bool.false_eq_true, if_false]
      obtain ⟨z11, e1, f1⟩ := fe_pow2 W B fp.z
      obtain ⟨z22, e2, f2⟩ := fe_pow2 W B fq.z
      obtain ⟨u1, e3, f3⟩ := fe_mul W fp.x f2
      obtain ⟨u2, e4, f4⟩ := fe_mul W fq.x f1
      obtain ⟨t1, e5, f5⟩ := fe_mul W fp.y fq.z
      obtain ⟨s1, e6, f6⟩ := fe_mul W f5 f2
      obtain ⟨t2, e7, f7⟩ := fe_mul W fq.y fp.z
      obtain ⟨s2, e8, f8⟩ := fe_mul W f7 f1
      rw [addFinite, e1, bind_ok, e2, bind_ok, e3, bind_ok, e4, bind_ok, e5, bind_ok, e6, bind_ok, e7, bind_ok, e8, bind_ok]
      have hz := mul_ne_zero hZ1 hZ2
      have hU : X1 * Z2 ^ 2 = X2 * Z1 ^ 2 ↔ x1 = x2 := by
        rw [rp.2.1, rq.2.1]
        constructor
        · intro h
          apply mul_right_cancel₀ (pow_ne_zero 2 hz)
          linear_combination h
        · intro h; rw [h]; ring
      have hS : Y1 * Z2 * Z2 ^ 2 = Y2 * Z1 * Z1 ^ 2 ↔ y1 = y2 := by
        rw [rp.2.2, rq.2.2]
        constructor
        · intro h
          apply mul_right_cancel₀ (pow_ne_zero 3 hz)
          linear_combination h
        · intro h; rw [h]; ring
      by_cases hx : x1 = x2
      · rw [if_pos ((fe_eq f3 f4).mpr (hU.mpr hx)), addSameX]
        by_cases hy : y1 = y2
        · have hs : NatMod.eq s1 s2 = true := (fe_eq f6 f8).mpr (hS.mpr hy)
          refine ⟨fun _ => ?_, fun h => ?_⟩
          · rw [require_false (by rw [hs]; simp), bind_panic]
          · subst hx hy
            exact absurd ⟨rfl, Affine.Point.some_ne_zero _⟩ h
        · have hs : NatMod.eq s1 s2 = false := by
            rw [Bool.eq_false_iff]; intro h; exact hy (hS.mp ((fe_eq f6 f8).mp h))
          obtain ⟨zero, e9, f9⟩ := lit (K := K) 0 0 (by simp)
          obtain ⟨one, e10, f10⟩ := lit (K := K) 1 1 (by simp)
          refine ⟨fun h => ?_, fun _ => ⟨⟨zero, one, zero⟩, ?_, ?_⟩⟩
          · exact absurd ((Affine.Point.some.injEq ..).mp h.1).2 hy
          · rw [require_true hs, bind_ok, e9, bind_ok, e10, bind_ok, bind_ok]
          · have : y1 = (Spec.P256.curveOf c).negY x2 y2 := (Affine.Y_eq_of_X_eq hn1.1 hn2.1 hx).resolve_left hy
            rw [Affine.Point.add_of_Y_eq hx this]
            exact repr_zero f9 f10 f9
      · rw [if_neg (by intro h; exact hx (hU.mp ((fe_eq f3 f4).mp h)))]
        refine ⟨fun h => ?_, fun _ => ?_⟩
        · exact absurd ((Affine.Point.some.injEq ..).mp h.1).1 hx
        · obtain ⟨r, H, I, J, R, V, X3, e, g1, g2, g3, g4, g5, g6, f⟩ := addGeneral_ok fp.z fq.z f1 f2 f3 f4 f6 f8
          exact ⟨r, e, _, _, _, f, Jac.rep_add two_ne hx rp rq rfl rfl rfl rfl g1 g2 g3 g4 g5 g6⟩

theorem top_bits (k i : Nat) (hi : i < 256) :
    k / 2 ^ (256 - (i + 1)) = 2 * (k / 2 ^ (256 - i)) + (k.testBit (255 - i)).toNat := by
  rw [show 256 - (i + 1) = 255 - i by omega, show 256 - i = (255 - i) + 1 by omega, Nat.pow_succ,
    ← Nat.div_div_eq_div_mul, Nat.testBit_eq_decide_div_mod_eq]
  generalize k / 2 ^ (255 - i) = t
  by_cases h : t % 2 = 1
  · simp only [h, decide_true, Bool.toNat_true]; omega
  · simp only [h, decide_false, Bool.toNat_false]; omega

theorem ladder_repr {k : Canvas} {n : Nat} (hn : n < 2 ^ 256)
    (hb : ∀ i, i < 256 → AbstractInt.bit k i = .ok (n.testBit i)) {p : Jacobian} {P : (Spec.P256.curveOf c).Point}
    (hp : Repr p P) : ∃ r, montgomeryLadder k p = .ok r ∧ Repr r (n • P) := by
  obtain ⟨zero, e0, f0⟩ := lit (K := K) 0 0 (by simp)
  obtain ⟨one, e1, f1⟩ := lit (K := K) 1 1 (by simp)
  obtain ⟨w, hl, hw, _⟩ := loop_inv
    (fun i (w : Jacobian × Jacobian) => Repr w.1 ((n / 2 ^ (256 - i)) • P) ∧ Repr w.2 ((n / 2 ^ (256 - i) + 1) • P))
    (n := 256) (body := ladderStep k) (s := (⟨zero, one, zero⟩, p))
    (by
      rw [Nat.div_eq_of_lt (by simpa using hn)]
      refine ⟨?_, ?_⟩
      · rw [zero_smul]; exact repr_zero f0 f1 f0
      · rw [zero_add, one_smul]; exact hp)
    (by
      rintro i hi ⟨a, b⟩ ⟨ha, hb'⟩
      rw [top_bits n i hi]
      generalize n / 2 ^ (256 - i) = m at ha hb'
      have hne : ∀ j l : Nat, (j = m ∧ l = m + 1) ∨ (j = m + 1 ∧ l = m) → ¬ (j • P = l • P ∧ j • P ≠ 0) := by
        intro j l hjl ⟨h1, h2⟩
        have hP : P = 0 := by
          rcases hjl with ⟨rfl, rfl⟩ | ⟨rfl, rfl⟩
          · rw [add_smul, one_smul] at h1; exact left_eq_add.mp h1
          · rw [add_smul, one_smul] at h1; exact left_eq_add.mp h1.symm
        rw [hP, smul_zero] at h2; exact h2 rfl
      simp only [ladderStep, hb (255 - i) (by omega), bind_ok]
      cases hbit : n.testBit (255 - i) with
      | true =>
        obtain ⟨xx, d1, d2⟩ := double_repr hb'
        obtain ⟨xp, a1, a2⟩ := (add_repr hb' ha).2 (hne _ _ (Or.inr ⟨rfl, rfl⟩))
        simp only [if_true, d1, a1, bind_ok]
        refine ⟨(xp, xx), rfl, ?_, ?_⟩
        · rw [← add_smul, show m + 1 + m = 2 * m + Bool.true.toNat by simp; omega] at a2
          exact a2
        · rw [← add_smul, show m + 1 + (m + 1) = 2 * m + Bool.true.toNat + 1 by simp; omega] at d2
          exact d2
      | false =>
        obtain ⟨xx, d1, d2⟩ := double_repr ha
        obtain ⟨xp, a1, a2⟩ := (add_repr ha hb').2 (hne _ _ (Or.inl ⟨rfl, rfl⟩))
        simp only [Bool.false_eq_true, if_false, d1, a1, bind_ok]
        refine ⟨(xx, xp), rfl, ?_, ?_⟩
        · rw [← add_smul, show m + m = 2 * m + Bool.false.toNat by simp; omega] at d2
          exact d2
        · rw [← add_smul, show m + (m + 1) = 2 * m + Bool.false.toNat + 1 by simp; omega] at a2
          exact a2)
  refine ⟨w.1, ?_, ?_⟩
  · rw [montgomeryLadder, e0, bind_ok, e1, bind_ok, bind_ok, hl, bind_ok]
  · simpa using hw

/-- The affine coordinates of a point, `(0, 0)` for the point at infinity. -/
def affine : (Spec.P256.curveOf c).Point → K × K
  | .zero => (0, 0)
  | .some x y _ => (x, y)

theorem toAffine_ok {p : Jacobian} {P : (Spec.P256.curveOf c).Point} (hp : Repr p P) :
    ∃ x y, jacobianToAffine p = .ok (x, y) ∧ Fe F x (affine P).1 ∧ Fe F y (affine P).2 := by
  obtain ⟨X, Y, Z, hf, hr⟩ := hp
  have W := F_WF
  obtain ⟨z2, e1, f1⟩ := fe_pow2 W F_bits hf.z
  obtain ⟨z2i, e2, f2⟩ := fe_inv W F_prime F_two f1
  obtain ⟨z3, e3, f3⟩ := fe_mul W hf.z f1
  obtain ⟨z3i, e4, f4⟩ := fe_inv W F_prime F_two f3
  obtain ⟨x, e5, f5⟩ := fe_mul W hf.x f2
  obtain ⟨y, e6, f6⟩ := fe_mul W hf.y f4
  refine ⟨x, y, ?_, ?_, ?_⟩
  · rw [jacobianToAffine, e1, bind_ok, e2, bind_ok, e3, bind_ok, e4, bind_ok, e5, bind_ok, e6, bind_ok]
  · cases P with
    | zero =>
      have hZ : Z = 0 := hr
      rw [hZ] at f5
      simpa [affine] using f5
    | some a b hn =>
      obtain ⟨hZ, hX, hY⟩ := hr
      have : X * (Z ^ 2)⁻¹ = a := by rw [hX, mul_assoc, mul_inv_cancel₀ (pow_ne_zero _ hZ), mul_one]
      rw [this] at f5; exact f5
  · cases P with
    | zero =>
      have hZ : Z = 0 := hr
      rw [hZ] at f6
      simpa [affine] using f6
    | some a b hn =>
      obtain ⟨hZ, hX, hY⟩ := hr
      have : Y * (Z * Z ^ 2)⁻¹ = b := by
        rw [hY, ← pow_succ', mul_assoc, mul_inv_cancel₀ (pow_ne_zero _ hZ), mul_one]
      rw [this] at f6; exact f6

/-! ## The base point -/

omit [DecidableEq K] in
theorem base_equation : (Spec.P256.curve K).Equation ((Spec.P256.gx : Nat) : K) ((Spec.P256.gy : Nat) : K) := by
  rw [Jac.equation]
  have h : (Spec.P256.gy ^ 2 + 3 * Spec.P256.gx) % F.n = (Spec.P256.gx ^ 3 + Spec.P256.b) % F.n := by decide +kernel
  have h2 := congrArg (fun n : Nat => (n : K)) h
  simp only [cast_mod] at h2
  rw [Nat.cast_add, Nat.cast_add, Nat.cast_mul, Nat.cast_pow, Nat.cast_pow] at h2
  have h3 : ((3 : Nat) : K) = 3 := by norm_num
  rw [h3] at h2
  linear_combination h2

omit [DecidableEq K] in
theorem base_nonsingular : (Spec.P256.curve K).Nonsingular ((Spec.P256.gx : Nat) : K) ((Spec.P256.gy : Nat) : K) := by
  rw [Affine.nonsingular_iff]
  refine ⟨base_equation, Or.inr ?_⟩
  simp only [Spec.P256.curveOf]
  intro h
  have h2 : ((2 * Spec.P256.gy : Nat) : K) = 0 := by
    rw [Nat.cast_mul]; push_cast; linear_combination h
  have := (CharP.cast_eq_zero_iff K F.n _).mp h2
  exact absurd this (by decide +kernel)

/-- The base point. -/
def G : (Spec.P256.curve K).Point := .some _ _ base_nonsingular

theorem hex_gx : NatMod.fromHex F (ascii gx) = .ok (F.enc Spec.P256.gx) := by
  rw [NatMod.fromHex, AbstractInt.fromHex]
  have : Hex.hexStringToBytes (ascii gx) = .ok ((bytesLe Spec.P256.gx).reverse) := by decide +kernel
  rw [this, bind_ok, natOfBe, List.reverse_reverse, leNat_bytesLe, fromBig_ok (inRange_nat (by decide +kernel)), bind_ok,
    fromCanvas_enc F_WF, Nat.mod_eq_of_lt (by decide +kernel)]
  rfl

theorem hex_gy : NatMod.fromHex F (ascii gy) = .ok (F.enc Spec.P256.gy) := by
  rw [NatMod.fromHex, AbstractInt.fromHex]
  have : Hex.hexStringToBytes (ascii gy) = .ok ((bytesLe Spec.P256.gy).reverse) := by decide +kernel
  rw [this, bind_ok, natOfBe, List.reverse_reverse, leNat_bytesLe, fromBig_ok (inRange_nat (by decide +kernel)), bind_ok,
    fromCanvas_enc F_WF, Nat.mod_eq_of_lt (by decide +kernel)]
  rfl

theorem pointMul_ok {k : Canvas} {n : Nat} (hn : n < 2 ^ 256)
    (hb : ∀ i, i < 256 → AbstractInt.bit k i = .ok (n.testBit i)) :
    ∃ x y, pointMul k = .ok (x, y) ∧ Fe F x (affine (n • (G : (Spec.P256.curve K).Point))).1 ∧
      Fe F y (affine (n • (G : (Spec.P256.curve K).Point))).2 := by
  obtain ⟨one, e1, f1⟩ := lit (K := K) 1 1 (by simp)
  have hG : Repr (K := K) ⟨F.enc Spec.P256.gx, F.enc Spec.P256.gy, one⟩ G :=
    ⟨_, _, _, ⟨fe_enc (by decide +kernel), fe_enc (by decide +kernel), f1⟩, one_ne_zero, by simp, by simp⟩
  obtain ⟨r, h1, h2⟩ := ladder_repr hn hb hG
  obtain ⟨x, y, h3, h4, h5⟩ := toAffine_ok h2
  exact ⟨x, y, by rw [pointMul, hex_gx, bind_ok, hex_gy, bind_ok, e1, bind_ok, h1, bind_ok, h3], h4, h5⟩

end Hacspec.P256
