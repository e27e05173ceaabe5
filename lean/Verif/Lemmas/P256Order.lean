import Verif.Lemmas.P256
import Verif.Lemmas.OrderPrimes
import Verif.Lemmas.NatEval
import Mathlib.GroupTheory.Perm.Cycle.Type
import Mathlib.FieldTheory.Finite.Basic

/-!
# The group of P-256 has prime order

A double-and-add evaluator over natural numbers, run by the kernel, shows `(n - 1) G = - G`.  The group has at most `2 p + 1`
elements and none of order 2, so `n` is its order.
-/

namespace Hacspec.P256.Order

open WeierstrassCurve
open NatEval
open Spec.P256 (n)

def dbl (q X Y Z : Nat) (f : Nat → Nat → Nat → Option α) : Option α :=
  force (mul q Z Z) fun z2 =>
  force (3 * mul q (sub q X z2) (X + z2) % q) fun a =>
  force (mul q Y Y) fun y2 =>
  force (mul q X y2) fun b =>
  force (sub q (mul q a a) (8 * b)) fun X3 =>
  force (sub q (mul q a (sub q (4 * b) X3)) (8 * mul q y2 y2)) fun Y3 =>
  force (2 * mul q Y Z % q) fun Z3 => f X3 Y3 Z3

def addG (q X Y Z : Nat) (f : Nat → Nat → Nat → Option α) : Option α :=
  force (mul q Z Z) fun z2 =>
  force (sub q (mul q Spec.P256.gx z2) X) fun h =>
  if z2 = 0 ∨ h = 0 then none else
  force (2 * sub q (mul q Spec.P256.gy (mul q Z z2)) Y % q) fun r =>
  force (4 * mul q h h % q) fun i =>
  force (mul q h i) fun j =>
  force (mul q X i) fun v =>
  force (sub q (sub q (mul q r r) j) (2 * v)) fun X3 =>
  force (sub q (mul q r (sub q v X3)) (2 * mul q Y j)) fun Y3 =>
  force (2 * mul q Z h % q) fun Z3 => f X3 Y3 Z3

def run (q k : Nat) : Nat → Nat → Nat → Nat → Option (Nat × Nat × Nat)
  | 0, X, Y, Z => some (X, Y, Z)
  | i + 1, X, Y, Z => dbl q X Y Z fun X Y Z =>
      if k.testBit i then addG q X Y Z fun X Y Z => run q k i X Y Z else run q k i X Y Z

def check (q k i : Nat) : Bool :=
  match run q k i Spec.P256.gx Spec.P256.gy 1 with
  | none => false
  | some (X, Y, Z) => Z % q != 0 && (X == mul q Spec.P256.gx (mul q Z Z)) && ((Y + mul q Spec.P256.gy (mul q Z (mul q Z Z))) % q == 0)

set_option maxRecDepth 100000 in
theorem check_ok :
    check 115792089210356248762697446949407573530086143415290314195533631308867097853951 (n - 1) 255 = true := by decide +kernel

/-! ## The evaluator is right -/

section
variable {K : Type} [Field K] {q : Nat} [CharP K q]

variable [DecidableEq K]

theorem dbl_ok (hq : 0 < q) (h2 : (2 : K) ≠ 0) {P : (Spec.P256.curve K).Point} {X Y Z : Nat} (h : Jac.Rep P (X : K) Y Z)
    (f : Nat → Nat → Nat → Option α) :
    ∃ X3 Y3 Z3 : Nat, dbl q X Y Z f = f X3 Y3 Z3 ∧ Jac.Rep (P + P) (X3 : K) Y3 Z3 := by
  simp only [dbl, force_eq]
  refine ⟨_, _, _, rfl, ?_⟩
  have := Jac.rep_double h2 h
  simp only [cast_sub hq, cast_mul, cast_modq, Nat.cast_mul, Nat.cast_add, Nat.cast_ofNat]
  convert this using 1 <;> ring

/-- The base point. -/
theorem addG_ok (hq : 0 < q) (h2 : (2 : K) ≠ 0)
    (hG : (Spec.P256.curve K).Nonsingular ((Spec.P256.gx : Nat) : K) ((Spec.P256.gy : Nat) : K))
    {P : (Spec.P256.curve K).Point} {X Y Z : Nat} (h : Jac.Rep P (X : K) Y Z)
    (f : Nat → Nat → Nat → Option α) : addG q X Y Z f = none ∨
    ∃ X3 Y3 Z3 : Nat, addG q X Y Z f = f X3 Y3 Z3 ∧ Jac.Rep (P + .some _ _ hG) (X3 : K) Y3 Z3 := by
  simp only [addG, force_eq]
  by_cases hc : mul q Z Z = 0 ∨ sub q (mul q Spec.P256.gx (mul q Z Z)) X = 0
  · left; rw [if_pos hc]
  · right
    rw [if_neg hc]
    rw [not_or] at hc
    refine ⟨_, _, _, rfl, ?_⟩
    have hz : (Z : K) ≠ 0 := by
      intro hz
      apply hc.1
      apply eq_zero_of_cast (K := K) (mul_lt hq _ _)
      rw [cast_mul, hz, zero_mul]
    have hh : ((Spec.P256.gx : Nat) : K) * (Z * Z) - X ≠ 0 := by
      intro hh
      apply hc.2
      apply eq_zero_of_cast (K := K) (sub_lt hq _ _)
      rw [cast_sub hq, cast_mul, cast_mul, hh]
    cases P with
    | zero => exact absurd h hz
    | some x y hn =>
      have hx : x ≠ ((Spec.P256.gx : Nat) : K) := by
        intro hx
        apply hh
        rw [h.2.1, hx]; ring
      have hg : Jac.Rep (Affine.Point.some _ _ hG) ((Spec.P256.gx : Nat) : K) ((Spec.P256.gy : Nat) : K) 1 :=
        ⟨one_ne_zero, by ring, by ring⟩
      have := Jac.rep_add h2 hx h hg rfl rfl rfl rfl rfl rfl rfl rfl rfl rfl
      simp only [cast_sub hq, cast_mul, cast_modq, Nat.cast_mul, Nat.cast_ofNat]
      convert this using 1 <;> ring

theorem run_ok (hq : 0 < q) (h2 : (2 : K) ≠ 0)
    (hG : (Spec.P256.curve K).Nonsingular ((Spec.P256.gx : Nat) : K) ((Spec.P256.gy : Nat) : K)) (k : Nat) :
    ∀ (i X Y Z : Nat), Jac.Rep ((k / 2 ^ i) • Affine.Point.some _ _ hG) (X : K) Y Z →
    ∀ X3 Y3 Z3, run q k i X Y Z = some (X3, Y3, Z3) → Jac.Rep (k • Affine.Point.some _ _ hG) (X3 : K) Y3 Z3
  | 0, X, Y, Z, h, X3, Y3, Z3, e => by
    simp only [run, Option.some.injEq, Prod.mk.injEq] at e
    obtain ⟨rfl, rfl, rfl⟩ := e
    simpa using h
  | i + 1, X, Y, Z, h, X3, Y3, Z3, e => by
    have hb : k / 2 ^ i = 2 * (k / 2 ^ (i + 1)) + (k.testBit i).toNat := by
      rw [Nat.pow_succ, ← Nat.div_div_eq_div_mul, Nat.testBit_eq_decide_div_mod_eq]
      generalize k / 2 ^ i = t
      by_cases h : t % 2 = 1
      · simp only [h, decide_true, Bool.toNat_true]; omega
      · simp only [h, decide_false, Bool.toNat_false]; omega
    rw [run] at e
    obtain ⟨X1, Y1, Z1, e1, h1⟩ := dbl_ok hq h2 h
      fun X Y Z => if k.testBit i then addG q X Y Z fun X Y Z => run q k i X Y Z else run q k i X Y Z
    rw [e1] at e
    rw [← two_nsmul, ← mul_nsmul'] at h1
    cases hk : k.testBit i with
    | false =>
      rw [hk] at e hb
      refine run_ok hq h2 hG k i X1 Y1 Z1 ?_ _ _ _ (by simpa using e)
      rw [hb]; simpa using h1
    | true =>
      rw [hk] at e hb
      simp only [if_true] at e
      rcases addG_ok hq h2 hG h1 fun X Y Z => run q k i X Y Z with e2 | ⟨X2, Y2, Z2, e2, h3⟩
      · rw [e2] at e; simp at e
      · rw [e2] at e
        refine run_ok hq h2 hG k i X2 Y2 Z2 ?_ _ _ _ e
        rw [hb, add_nsmul]; simpa using h3

/-- If the check succeeds, `k G = - G`. -/
theorem pred_smul (hq : 0 < q) (h2 : (2 : K) ≠ 0)
    (hG : (Spec.P256.curve K).Nonsingular ((Spec.P256.gx : Nat) : K) ((Spec.P256.gy : Nat) : K))
    {k i : Nat} (hki : k / 2 ^ i = 1) (hc : check q k i = true) : (k + 1) • Affine.Point.some _ _ hG = 0 := by
  rw [check] at hc
  cases hr : run q k i Spec.P256.gx Spec.P256.gy 1 with
  | none => rw [hr] at hc; simp at hc
  | some w =>
    obtain ⟨X, Y, Z⟩ := w
    rw [hr] at hc
    simp only [Bool.and_eq_true, bne_iff_ne, beq_iff_eq] at hc
    obtain ⟨⟨c1, c2⟩, c3⟩ := hc
    have := run_ok hq h2 hG k i Spec.P256.gx Spec.P256.gy 1
      (by rw [hki, one_smul]; exact ⟨by simp, by simp, by simp⟩) X Y Z hr
    have hz : (Z : K) ≠ 0 := fun hz => c1 (Nat.mod_eq_zero_of_dvd ((CharP.cast_eq_zero_iff K q Z).mp hz))
    have hx : (X : K) = (Spec.P256.gx : Nat) * Z ^ 2 := by rw [c2, cast_mul, cast_mul]; ring
    have hy : (Y : K) = -((Spec.P256.gy : Nat) : K) * Z ^ 3 := by
      have := congrArg (fun m : Nat => (m : K)) c3
      simp only [cast_modq, Nat.cast_add, cast_mul, Nat.cast_zero] at this
      linear_combination this
    rw [add_smul, one_smul]
    generalize k • Affine.Point.some _ _ hG = Q at this
    cases Q with
    | zero => exact absurd this hz
    | some x y hxy =>
      obtain ⟨_, ex, ey⟩ := this
      have ex' : x = ((Spec.P256.gx : Nat) : K) := mul_right_cancel₀ (pow_ne_zero 2 hz) (ex.symm.trans hx)
      have ey' : y = -((Spec.P256.gy : Nat) : K) := mul_right_cancel₀ (pow_ne_zero 3 hz) (ey.symm.trans hy)
      exact Affine.Point.add_of_Y_eq ex' (by rw [Jac.negY]; exact ey')

/-! ## No point of order two -/

/-- Multiplication modulo `x^3 - 3 x + b`. -/
def mulT (q a0 a1 a2 b0 b1 b2 : Nat) (f : Nat → Nat → Nat → α) : α :=
  force ((a1 * b2 + a2 * b1) % q) fun c3 =>
  force (a2 * b2 % q) fun c4 =>
  force ((a0 * b0 + (q - Spec.P256.b) * c3) % q) fun r0 =>
  force ((a0 * b1 + a1 * b0 + 3 * c3 + (q - Spec.P256.b) * c4) % q) fun r1 =>
  force ((a0 * b2 + a1 * b1 + a2 * b0 + 3 * c4) % q) fun r2 => f r0 r1 r2

/-- From the triple of `x^(k / 2^i)` to the one of `x^k`. -/
def powT (q k : Nat) : Nat → Nat → Nat → Nat → Nat × Nat × Nat
  | 0, a, b, c => (a, b, c)
  | i + 1, a, b, c => mulT q a b c a b c fun a b c =>
      if k.testBit i then mulT q a b c 0 1 0 fun a b c => powT q k i a b c else powT q k i a b c

/-- `x^q - x` is invertible modulo the cubic: the inverse is given. -/
def checkT (q i u0 u1 u2 : Nat) : Bool :=
  match powT q q i 1 0 0 with
  | (a, b, c) => mulT q a (b + (q - 1)) c u0 u1 u2 fun r0 r1 r2 => r0 == 1 && r1 == 0 && r2 == 0

set_option maxRecDepth 100000 in
theorem checkT_ok : checkT 115792089210356248762697446949407573530086143415290314195533631308867097853951 256
    76626890310466861426869089647039036757962535851890885406097439786770458211455
    74462945259064871768191128030512052509059297803194871526163573358218695456204
    34768139465301476436978405170953382516735956999154666452188405812258086013549 = true := by decide +kernel

omit [DecidableEq K] in
theorem mulT_ok (hq : Spec.P256.b ≤ q) {x : K} (hx : x ^ 3 - 3 * x + (Spec.P256.b : Nat) = 0) (a0 a1 a2 b0 b1 b2 : Nat)
    (f : Nat → Nat → Nat → α) : ∃ r0 r1 r2 : Nat, mulT q a0 a1 a2 b0 b1 b2 f = f r0 r1 r2 ∧
    (r0 + r1 * x + r2 * x ^ 2 : K) = (a0 + a1 * x + a2 * x ^ 2) * (b0 + b1 * x + b2 * x ^ 2) := by
  simp only [mulT, force_eq]
  refine ⟨_, _, _, rfl, ?_⟩
  simp only [cast_modq, Nat.cast_mul, Nat.cast_add, Nat.cast_sub hq, CharP.cast_eq_zero K q, Nat.cast_ofNat]
  linear_combination (-((a1 : K) * b2 + a2 * b1) - a2 * b2 * x) * hx

omit [DecidableEq K] in
theorem powT_ok (hq : Spec.P256.b ≤ q) {x : K} (hx : x ^ 3 - 3 * x + (Spec.P256.b : Nat) = 0) (k : Nat) :
    ∀ i a b c : Nat, (a + b * x + c * x ^ 2 : K) = x ^ (k / 2 ^ i) →
      (((powT q k i a b c).1 : Nat) + (powT q k i a b c).2.1 * x + (powT q k i a b c).2.2 * x ^ 2 : K) = x ^ k
  | 0, a, b, c, h => by simpa [powT] using h
  | i + 1, a, b, c, h => by
    have hb : k / 2 ^ i = (k / 2 ^ (i + 1)) + (k / 2 ^ (i + 1)) + (k.testBit i).toNat := by
      rw [Nat.pow_succ, ← Nat.div_div_eq_div_mul, Nat.testBit_eq_decide_div_mod_eq]
      generalize k / 2 ^ i = t
      by_cases h : t % 2 = 1
      · simp only [h, decide_true, Bool.toNat_true]; omega
      · simp only [h, decide_false, Bool.toNat_false]; omega
    rw [powT]
    obtain ⟨a1, b1, c1, e1, h1⟩ := mulT_ok hq hx a b c a b c fun a b c =>
      if k.testBit i then mulT q a b c 0 1 0 fun a b c => powT q k i a b c else powT q k i a b c
    rw [e1]
    rw [h, ← pow_add] at h1
    cases hk : k.testBit i with
    | false =>
      rw [hk] at hb
      simp only [Bool.false_eq_true, if_false]
      refine powT_ok hq hx k i a1 b1 c1 ?_
      rw [hb]; simpa using h1
    | true =>
      rw [hk] at hb
      simp only [if_true]
      obtain ⟨a2, b2, c2, e2, h3⟩ := mulT_ok hq hx a1 b1 c1 0 1 0 fun a b c => powT q k i a b c
      rw [e2]
      refine powT_ok hq hx k i a2 b2 c2 ?_
      rw [hb, h3, h1, pow_add _ _ (Bool.toNat true)]; simp

omit [DecidableEq K] in
theorem no_root (hq : Spec.P256.b ≤ q) (hq0 : 1 ≤ q) {i : Nat} (hlt : q < 2 ^ i) {u0 u1 u2 : Nat} (hc : checkT q i u0 u1 u2 = true)
    {x : K} (hpow : x ^ q = x) : x ^ 3 - 3 * x + (Spec.P256.b : Nat) ≠ 0 := by
  intro hx
  have h1 := powT_ok hq hx q i 1 0 0 (by rw [Nat.div_eq_of_lt hlt]; simp)
  rw [checkT] at hc
  generalize powT q q i 1 0 0 = w at h1 hc
  obtain ⟨a, b, c⟩ := w
  simp only at h1 hc
  obtain ⟨r0, r1, r2, e, h2⟩ := mulT_ok hq hx a (b + (q - 1)) c u0 u1 u2
    fun r0 r1 r2 => r0 == 1 && r1 == 0 && r2 == 0
  rw [e] at hc
  simp only [Bool.and_eq_true, beq_iff_eq] at hc
  obtain ⟨⟨rfl, rfl⟩, rfl⟩ := hc
  rw [hpow] at h1
  have h3 : ((a : K) + ((b + (q - 1) : Nat) : K) * x + c * x ^ 2) = 0 := by
    rw [Nat.cast_add, Nat.cast_sub hq0, CharP.cast_eq_zero K q]
    simp only [Nat.cast_one]
    linear_combination h1
  rw [h3, zero_mul] at h2
  simp at h2

end

/-! ## The number of points -/

section
variable {q : Nat} [Fact q.Prime]

/-- The `x`-coordinate, and in which half the `y`-coordinate is. -/
def code : (Spec.P256.curve (ZMod q)).Point → Option (ZMod q × Bool)
  | .zero => none
  | .some x y _ => some (x, decide (2 * y.val < q))

theorem code_injective (hodd : q % 2 = 1) : Function.Injective (code (q := q)) := by
  intro P Q h
  cases P with
  | zero =>
    cases Q with
    | zero => rfl
    | some x y hn => simp [code] at h
  | some x y hn =>
    cases Q with
    | zero => simp [code] at h
    | some x' y' hn' =>
      simp only [code, Option.some.injEq, Prod.mk.injEq, decide_eq_decide] at h
      obtain ⟨rfl, hy⟩ := h
      have h1 := Jac.equation.mp hn.1
      have h2 := Jac.equation.mp hn'.1
      have : y = y' := by
        rcases sq_eq_sq_iff_eq_or_eq_neg.mp (h1.trans h2.symm) with h | h
        · exact h
        · by_cases h0 : y' = 0
          · rw [h, h0, neg_zero]
          · exfalso
            have : NeZero y' := ⟨h0⟩
            have hv : y.val = q - y'.val := by rw [h, ZMod.val_neg_of_ne_zero]
            have hlt := ZMod.val_lt y'
            have hpos : 0 < y'.val := Nat.pos_of_ne_zero (by rwa [Ne, ZMod.val_eq_zero])
            omega
      subst this
      rfl

theorem card_le (hodd : q % 2 = 1) :
    Finite (Spec.P256.curve (ZMod q)).Point ∧ Nat.card (Spec.P256.curve (ZMod q)).Point ≤ 2 * q + 1 := by
  have hi := code_injective hodd
  have : NeZero q := ⟨(Fact.out : q.Prime).ne_zero⟩
  refine ⟨Finite.of_injective _ hi, ?_⟩
  have := Nat.card_le_card_of_injective _ hi
  have h2 : Nat.card Bool = 2 := by simp
  rw [Finite.card_option, Nat.card_prod, Nat.card_zmod, h2] at this
  omega

theorem card_eq {m : Nat} (hm : m.Prime) (hodd : q % 2 = 1) (hb : 2 * q + 1 < 3 * m)
    (hroot : ∀ x : ZMod q, x ^ 3 - 3 * x + (Spec.P256.b : Nat) ≠ 0) {G : (Spec.P256.curve (ZMod q)).Point}
    (hG : G ≠ 0) (hmG : m • G = 0) : addOrderOf G = m ∧ Nat.card (Spec.P256.curve (ZMod q)).Point = m := by
  have : Fact m.Prime := ⟨hm⟩
  have ho : addOrderOf G = m := addOrderOf_eq_prime hmG hG
  refine ⟨ho, ?_⟩
  obtain ⟨hf, hc⟩ := card_le (q := q) hodd
  have hd : m ∣ Nat.card (Spec.P256.curve (ZMod q)).Point := ho ▸ addOrderOf_dvd_natCard G
  have hpos : 0 < Nat.card (Spec.P256.curve (ZMod q)).Point := Nat.card_pos
  obtain ⟨c, hc'⟩ := hd
  have hc3 : c < 3 := by
    by_contra h
    have : m * 3 ≤ m * c := Nat.mul_le_mul_left m (by omega)
    omega
  have hc1 : c ≠ 0 := by rintro rfl; omega
  have hc2 : c ≠ 2 := by
    rintro rfl
    obtain ⟨P, hP⟩ := exists_prime_addOrderOf_dvd_card' (G := (Spec.P256.curve (ZMod q)).Point) 2 ⟨m, by omega⟩
    have h2 : P + P = 0 := by rw [← two_nsmul, ← hP]; exact addOrderOf_nsmul_eq_zero P
    have hne : P ≠ 0 := by rintro rfl; simp at hP
    cases P with
    | zero => exact hne rfl
    | some x y hn =>
      have h3 : Affine.Point.some x y hn = - Affine.Point.some x y hn := eq_neg_of_add_eq_zero_left h2
      rw [Affine.Point.neg_some] at h3
      have hy : y = -y := by
        have := ((Affine.Point.some.injEq ..).mp h3).2
        rwa [Jac.negY] at this
      have h2' : (2 : ZMod q) ≠ 0 := by
        intro h
        have := (ZMod.natCast_eq_zero_iff 2 q).mp (by exact_mod_cast h)
        have := (Nat.prime_dvd_prime_iff_eq Fact.out Nat.prime_two).mp this
        omega
      have hy0 : y = 0 := by
        have : 2 * y = 0 := by linear_combination hy
        exact (mul_eq_zero.mp this).resolve_left h2'
      have he := Jac.equation.mp hn.1
      exact hroot x (by rw [← he, hy0]; ring)
  have : c = 1 := by omega
  rw [hc', this, mul_one]

end

theorem p_eq : Spec.P256.p = 115792089210356248762697446949407573530086143415290314195533631308867097853951 := by
  decide +kernel

theorem n_prime : n.Prime := Primes.prime_p256_order

/-- The group has prime order, and is generated by the base point. -/
theorem order [Fact Spec.P256.p.Prime] [CharP (ZMod Spec.P256.p) F.n] :
    addOrderOf (G : (Spec.P256.curve (ZMod Spec.P256.p)).Point) = n ∧
    Nat.card (Spec.P256.curve (ZMod Spec.P256.p)).Point = n := by
  have hn : (n - 1) + 1 = n := by decide +kernel
  refine card_eq n_prime (by decide +kernel) (by decide +kernel) (fun x => ?_) (Affine.Point.some_ne_zero _) ?_
  · exact no_root (q := Spec.P256.p) (i := 256) (by decide +kernel) (by decide +kernel) (by decide +kernel)
      (by rw [p_eq]; exact checkT_ok) (ZMod.pow_card x)
  · rw [← hn]
    exact pred_smul (q := Spec.P256.p) (by decide +kernel) two_ne base_nonsingular (i := 255) (by decide +kernel)
      (by rw [p_eq]; exact check_ok)

end Hacspec.P256.Order
