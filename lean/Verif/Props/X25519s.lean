import Verif.Lemmas.X25519
import Verif.Props.NatMods
import Mathlib.FieldTheory.IsAlgClosed.AlgebraicClosure

/-! # C51–C53, C60, C61: X25519 -/

namespace Hacspec.Props

open SecretInt NatMod Hacspec.AbstractInt Spec WeierstrassCurve

/-! ## C51 -/

/-- **C51.**  `decode_scalar` never panics on 32 bytes; bits 0, 1, 2 and 255 of the scalar are 0, bit 254 is 1, and every
other bit is the bit of the input. -/
theorem C51_decode_scalar (s : List U8) (hs : s.length = 32) :
    ∃ k, Curve25519.decodeScalar s = .ok k ∧ val k = X25519.scalar s ∧ val k < 2 ^ 255 ∧
      ∀ i, (val k).testBit i = (decide (i = 254) || (decide (3 ≤ i ∧ i < 254) && (leVal s).testBit i)) := by
  refine ⟨_, Curve25519.decodeScalar_ok hs, toBigUint_tenc _, ?_, ?_⟩
  · rw [val, toBigUint_tenc]; exact Curve25519.scalar_lt s
  · intro i
    rw [val, toBigUint_tenc, X25519.scalar]
    have hlt : 8 * (leVal s / 8 % 2 ^ 251) < 2 ^ 254 := by
      have := Nat.mod_lt (leVal s / 8) (show 0 < 2 ^ 251 by norm_num)
      have e : (2 : Nat) ^ 254 = 8 * 2 ^ 251 := by norm_num
      omega
    rw [show (2 : Nat) ^ 254 + 8 * (leVal s / 8 % 2 ^ 251) = 2 ^ 254 * 1 + 8 * (leVal s / 8 % 2 ^ 251) by ring,
      Nat.testBit_two_pow_mul_add _ hlt, show 8 * (leVal s / 8 % 2 ^ 251) = 2 ^ 3 * (leVal s / 8 % 2 ^ 251) by rfl,
      Nat.testBit_two_pow_mul, Nat.testBit_mod_two_pow, show leVal s / 8 = leVal s / 2 ^ 3 by rfl, Nat.testBit_div_two_pow]
    by_cases h1 : i < 254
    · rw [if_pos h1]
      by_cases h3 : 3 ≤ i
      · have e : 3 + (i - 3) = i := by omega
        simp [h3, h1, show i - 3 < 251 by omega, show i ≠ 254 by omega, e, Nat.sub_add_cancel h3]
      · simp [h3, show i ≠ 254 by omega]
    · rw [if_neg h1]
      by_cases h2 : i = 254
      · subst h2; rfl
      · rw [Nat.testBit_lt_two_pow]
        · simp [h1, h2]
        · exact Nat.one_lt_two_pow (by omega)

/-- **C51.**  `decode_point` never panics on 32 bytes, ignores the top bit and reduces modulo `p`. -/
theorem C51_decode_point (u : List U8) (hu : u.length = 32) :
    ∃ x z, Curve25519.decodePoint u = .ok (x, z) ∧ val x = leVal u % 2 ^ 255 % (2 ^ 255 - 19) ∧ val z = 1 :=
  ⟨_, _, Curve25519.decodePoint_ok hu, toBigUint_tenc _, toBigUint_tenc _⟩

theorem reduced_of_operand {T : NatTy} (hT : T.WF) (hb : 2 ^ 128 ≤ T.n) {x : Canvas} (h : Operand T x) : Reduced T x := by
  obtain ⟨h1, h2⟩ := reach_proper hT h
  refine ⟨toBig_of_proper h1, ?_⟩
  rcases h2 with h2 | ⟨y, _, hy, _⟩
  · exact h2
  · have := y.isLt
    omega

theorem coord_leBytes {v : Nat} (hv : v < Curve25519.F.n) : X25519.coord (leBytes 32 v) = v := by
  have h255 : Curve25519.F.n < 2 ^ 255 := by decide +kernel
  rw [X25519.coord, leVal_leBytes, Nat.mod_eq_of_lt (a := v), Nat.mod_eq_of_lt (Nat.lt_trans hv h255),
    Nat.mod_eq_of_lt]
  · rw [← Curve25519.F_n]; exact hv
  · exact Nat.lt_trans hv (Nat.lt_trans h255 (by norm_num))

/-- **C51.**  Encoding an affine point `(x, 1)` and decoding the 32 bytes gives the field element `x` back. -/
theorem C51_round_trip {x : Canvas} (hx : Operand Curve25519.F x) {one : Canvas}
    (h1 : NatMod.fromLiteral Curve25519.F 1 = .ok one) :
    ∃ b x' z', Curve25519.encodePoint (x, one) = .ok b ∧ b.length = 32 ∧
      Curve25519.decodePoint b = .ok (x', z') ∧ val x' = val x ∧ val z' = 1 := by
  have hr := reduced_of_operand Curve25519.F_WF Curve25519.F_big hx
  have : Fact Curve25519.F.n.Prime := ⟨Curve25519.F_prime⟩
  obtain ⟨o, e, f1⟩ := fe_literal (T := Curve25519.F) (K := ZMod Curve25519.F.n) Curve25519.F_WF 1 (Curve25519.lit_lt _)
  rw [h1] at e
  cases e
  obtain ⟨v, h2, h3, h4⟩ := Curve25519.encodePoint_ok (K := ZMod Curve25519.F.n) hr.fe f1
  have hv : v = val x := by
    apply cast_inj (K := ZMod Curve25519.F.n) h3 hr.lt
    rw [h4]; simp
  refine ⟨_, _, _, h2, length_leBytes _ _, Curve25519.decodePoint_ok (length_leBytes _ _), ?_, toBigUint_tenc _⟩
  rw [val, toBigUint_tenc, coord_leBytes h3, hv]

/-- **C51.**  Decoding a canonical string and encoding the result gives the string back. -/
theorem C51_canonical (u : List U8) (hu : u.length = 32) (hc : leVal u < 2 ^ 255 - 19) :
    (Curve25519.decodePoint u >>= Curve25519.encodePoint) = .ok u := by
  have : Fact Curve25519.F.n.Prime := ⟨Curve25519.F_prime⟩
  have hp : Curve25519.F.n = 2 ^ 255 - 19 := by decide +kernel
  have hco : X25519.coord u = leVal u := by
    conv_lhs => rw [← Curve25519.leBytes_leVal u, hu]
    rw [coord_leBytes (by rw [hp]; exact hc)]
  have f1 := fe_enc (T := Curve25519.F) (K := ZMod Curve25519.F.n) (k := 1) (Nat.lt_trans (by norm_num) Curve25519.F_two)
  have fx := fe_enc (T := Curve25519.F) (K := ZMod Curve25519.F.n) (Curve25519.coord_lt u)
  obtain ⟨v, h2, h3, h4⟩ := Curve25519.encodePoint_ok fx f1
  rw [Curve25519.decodePoint_ok hu, bind_ok, h2]
  have hv : v = leVal u := by
    rw [← hco]
    apply cast_inj (K := ZMod Curve25519.F.n) h3 (Curve25519.coord_lt u)
    rw [h4]; simp
  have := Curve25519.leBytes_leVal u
  rw [hu] at this
  rw [hv, this]

example := C51_decode_scalar (List.replicate 32 255) (by simp)
example := C51_canonical (9 :: List.replicate 31 0) (by simp) (by decide +kernel)

/-! ## C52 -/

instance factPrimeX25519 : Fact X25519.p.Prime := ⟨Primes.prime_25519⟩

/-- Every number is the `u`-coordinate of a point of the curve over the algebraic closure of the prime field, so the
hypotheses of `C52_scalarmult` can be met for every input. -/
theorem C52_point_exists (n : Nat) :
    ∃ y, (X25519.curve (AlgebraicClosure (ZMod X25519.p))).Nonsingular ((n : Nat) : AlgebraicClosure (ZMod X25519.p)) y := by
  have : CharP (AlgebraicClosure (ZMod X25519.p)) Curve25519.F.n := by
    rw [Curve25519.F_n]; infer_instance
  obtain ⟨y, hy⟩ := IsAlgClosed.exists_pow_nat_eq
    (((n : AlgebraicClosure (ZMod X25519.p)) ^ 3 + 486662 * (n : AlgebraicClosure (ZMod X25519.p)) ^ 2 +
      (n : AlgebraicClosure (ZMod X25519.p)))) (show 0 < 2 by norm_num)
  exact ⟨y, Curve25519.nonsingular hy⟩

/-- **C52.**  For all scalar strings and all `u`-coordinate strings, `scalarmult` does not panic and returns the 32-byte
encoding of a number `v < p` which is the `u`-coordinate of `k P` (0 for the point at infinity): for every field `K` of
characteristic `p` and every point `P` of the curve over `K` whose `u`-coordinate is the decoded one. -/
theorem C52_scalarmult (s u : List U8) (hs : s.length = 32) (hu : u.length = 32) :
    ∃ v, Curve25519.scalarmult s u = .ok (leBytes 32 v) ∧ v < X25519.p ∧
      ∀ (K : Type) [Field K] [DecidableEq K] [CharP K X25519.p] (x y : K) (hn : (X25519.curve K).Nonsingular x y),
        x = ((X25519.coord u : Nat) : K) → ((v : Nat) : K) = X25519.u (X25519.scalar s • Affine.Point.some x y hn) := by
  classical
  have main : ∀ (K : Type) [Field K] [DecidableEq K] [CharP K X25519.p] (x y : K) (hn : (X25519.curve K).Nonsingular x y),
      x = ((X25519.coord u : Nat) : K) → ∃ v, Curve25519.scalarmult s u = .ok (leBytes 32 v) ∧ v < X25519.p ∧
        ((v : Nat) : K) = X25519.u (X25519.scalar s • Affine.Point.some x y hn) := by
    intro K _ _ hc x y hn hx
    have : CharP K Curve25519.F.n := by rw [Curve25519.F_n]; exact hc
    rw [← Curve25519.F_n]
    exact Curve25519.scalarmult_ok hs hu hn hx
  obtain ⟨y, hn⟩ := C52_point_exists (X25519.coord u)
  obtain ⟨v, h1, h2, _⟩ := main _ _ y hn rfl
  refine ⟨v, h1, h2, ?_⟩
  intro K _ _ hc x y hn hx
  obtain ⟨w, g1, g2, g3⟩ := main K x y hn hx
  rw [h1] at g1
  injection g1 with g1
  have h256 : X25519.p < 256 ^ 32 := by decide +kernel
  have : v = w := by
    have := leBytes_inj g1
    rwa [Nat.mod_eq_of_lt (Nat.lt_trans h2 h256), Nat.mod_eq_of_lt (Nat.lt_trans g2 h256)] at this
  rw [this, g3]

/-- The hypotheses of `C52_scalarmult` hold for the base point, `u = 9`. -/
example : ∃ y, (X25519.curve (AlgebraicClosure (ZMod X25519.p))).Nonsingular
    ((X25519.coord (9 :: List.replicate 31 0) : Nat) : AlgebraicClosure (ZMod X25519.p)) y := C52_point_exists _

/-! ## C53 -/

/-- **C53 (refutation).**  `secret_to_public` panics for every scalar: `SerializedPoint::from_hex("09")` is one byte, not 32. -/
theorem C53_secret_to_public_refuted (s : List U8) : Curve25519.secretToPublic s = panic := rfl

/-- The value that the documentation promises exists: multiplying the base point does not panic. -/
example (s : List U8) (hs : s.length = 32) : ∃ b, Curve25519.scalarmult s (9 :: List.replicate 31 0) = .ok b := by
  obtain ⟨v, h, _⟩ := C52_scalarmult s (9 :: List.replicate 31 0) hs (by simp)
  exact ⟨_, h⟩

/-! ## C60 -/

theorem u_eq_zero_smul {K : Type} [Field K] [DecidableEq K] [CharP K X25519.p] {y : K}
    (hn : (X25519.curve K).Nonsingular 0 y) (k : Nat) : X25519.u (k • Affine.Point.some 0 y hn) = 0 := by
  have hy : y = 0 := by
    have := Montgomery.equation.mp hn.1
    have h : y ^ 2 = 0 := by rw [this]; ring
    exact (pow_eq_zero_iff two_ne_zero).mp h
  have ht : Affine.Point.some 0 y hn + Affine.Point.some 0 y hn = 0 :=
    Affine.Point.add_self_of_Y_eq (by rw [Montgomery.negY, hy, neg_zero])
  rcases Curve25519.smul_two_torsion ht k with h | h <;> rw [h] <;> rfl

/-- Iterated scalar multiplication, as the `u`-coordinate of the product. -/
theorem scalarmult_twice {a b u : List U8} (ha : a.length = 32) (hb : b.length = 32) (hu : u.length = 32)
    {K : Type} [Field K] [DecidableEq K] [CharP K X25519.p] {x y : K} (hn : (X25519.curve K).Nonsingular x y)
    (hx : x = ((X25519.coord u : Nat) : K))
    (hex : ∀ n : Nat, ∃ y, (X25519.curve K).Nonsingular ((n : Nat) : K) y) :
    ∃ v, (Curve25519.scalarmult b u >>= Curve25519.scalarmult a) = .ok (leBytes 32 v) ∧ v < X25519.p ∧
      ((v : Nat) : K) = X25519.u ((X25519.scalar a * X25519.scalar b) • Affine.Point.some x y hn) := by
  obtain ⟨w, h1, h2, h3⟩ := C52_scalarmult b u hb hu
  have h4 := h3 K x y hn hx
  obtain ⟨v, g1, g2, g3⟩ := C52_scalarmult a (leBytes 32 w) ha (length_leBytes _ _)
  refine ⟨v, by rw [h1, bind_ok, g1], g2, ?_⟩
  rw [coord_leBytes (by rw [Curve25519.F_n]; exact h2)] at g3
  rw [mul_smul]
  generalize X25519.scalar b • Affine.Point.some x y hn = Q at h4
  cases Q with
  | zero =>
    obtain ⟨y', hn'⟩ := hex w
    rw [g3 K _ y' hn' rfl]
    have hw : ((w : Nat) : K) = 0 := h4
    have : ∀ (x : K) (hn : (X25519.curve K).Nonsingular x y'), x = 0 →
        X25519.u (X25519.scalar a • Affine.Point.some x y' hn) = 0 := by
      intro x hn hx; subst hx; exact u_eq_zero_smul hn _
    rw [this _ hn' hw]
    change 0 = X25519.u (X25519.scalar a • (0 : (X25519.curve K).Point))
    rw [smul_zero]; rfl
  | some x' y' hn' => exact g3 K x' y' hn' h4.symm

/-- **C60.**  Diffie–Hellman agreement: for all secret strings `a`, `b` and every `u`-coordinate string, both orders of
multiplication succeed and give the same 32 bytes. -/
theorem C60_agreement (a b u : List U8) (ha : a.length = 32) (hb : b.length = 32) (hu : u.length = 32) :
    ∃ k, k.length = 32 ∧ (Curve25519.scalarmult b u >>= Curve25519.scalarmult a) = .ok k ∧
      (Curve25519.scalarmult a u >>= Curve25519.scalarmult b) = .ok k := by
  classical
  obtain ⟨y, hn⟩ := C52_point_exists (X25519.coord u)
  obtain ⟨v, h1, h2, h3⟩ := scalarmult_twice ha hb hu hn rfl C52_point_exists
  obtain ⟨w, g1, g2, g3⟩ := scalarmult_twice hb ha hu hn rfl C52_point_exists
  have : v = w := by
    rw [mul_comm, ← h3] at g3
    have : CharP (AlgebraicClosure (ZMod X25519.p)) Curve25519.F.n := by
      rw [Curve25519.F_n]; infer_instance
    rw [← Curve25519.F_n] at h2 g2
    exact (cast_inj (K := AlgebraicClosure (ZMod X25519.p)) g2 h2 g3).symm
  subst this
  exact ⟨_, length_leBytes _ _, h1, g1⟩

example := C60_agreement (List.replicate 32 1) (List.replicate 32 2) (9 :: List.replicate 31 0) (by simp) (by simp) (by simp)

/-! ## C61 -/

/-- **C61.**  Points of small order: if the decoded `u`-coordinate belongs to a point of order dividing 8, over any field of
characteristic `p`, the result is 32 zero bytes for every secret. -/
theorem C61_small_order (s u : List U8) (hs : s.length = 32) (hu : u.length = 32)
    {K : Type} [Field K] [DecidableEq K] [CharP K X25519.p] {x y : K} (hn : (X25519.curve K).Nonsingular x y)
    (hx : x = ((X25519.coord u : Nat) : K)) (h8 : 8 • Affine.Point.some x y hn = 0) :
    Curve25519.scalarmult s u = .ok (List.replicate 32 0) := by
  obtain ⟨v, h1, h2, h3⟩ := C52_scalarmult s u hs hu
  have h4 := h3 K x y hn hx
  have hk : X25519.scalar s = (2 ^ 251 + leVal s / 8 % 2 ^ 251) * 8 := by
    rw [X25519.scalar]; ring
  rw [hk, mul_smul, h8, smul_zero] at h4
  have hv : v = 0 := by
    have : CharP K Curve25519.F.n := by rw [Curve25519.F_n]; infer_instance
    rw [← Curve25519.F_n] at h2
    refine cast_inj (K := K) h2 (Nat.lt_trans (by norm_num) Curve25519.F_two) ?_
    rw [h4, Nat.cast_zero]; rfl
  rw [h1, hv]; decide

/-- The points with `u = 1` have order 4. -/
example (s : List U8) (hs : s.length = 32) :
    Curve25519.scalarmult s (1 :: List.replicate 31 0) = .ok (List.replicate 32 0) := by
  classical
  have hc : CharP (AlgebraicClosure (ZMod X25519.p)) Curve25519.F.n := by
    rw [Curve25519.F_n]; infer_instance
  obtain ⟨y, hn⟩ := C52_point_exists (X25519.coord (1 :: List.replicate 31 0))
  refine C61_small_order s _ hs (by simp) hn rfl ?_
  have h1 : X25519.coord (1 :: List.replicate 31 0) = 1 := by decide +kernel
  have hr := Montgomery.rep_double Curve25519.two_ne Curve25519.A_ne
    (P := .some _ y hn) (X := 1) (Z := 1) ⟨one_ne_zero, by rw [h1]; simp⟩
  have e8 : ∀ P : (X25519.curve (AlgebraicClosure (ZMod X25519.p))).Point, 8 • P = 4 • (P + P) := by
    intro P; rw [← two_nsmul]; exact mul_nsmul P 2 4
  rw [e8]
  generalize Affine.Point.some _ y hn + Affine.Point.some _ y hn = Q at hr
  have e4 : ∀ P : (X25519.curve (AlgebraicClosure (ZMod X25519.p))).Point, P + P = 0 → 4 • P = 0 := by
    intro P h; rw [show 4 • P = 2 • (2 • P) from mul_nsmul P 2 2, two_nsmul P, h, nsmul_zero]
  cases Q with
  | zero => exact smul_zero _
  | some x' y' hn' =>
    apply e4
    have hx' : x' = 0 := by
      have h := hr.2
      have hz := hr.1
      rw [show (1 + 1 : AlgebraicClosure (ZMod X25519.p)) ^ 2 * ((1 - 1) * (1 - 1)) = 0 by ring] at h
      exact (mul_eq_zero.mp h.symm).resolve_right hz
    subst hx'
    have hy : y' = 0 := by
      have := Montgomery.equation.mp hn'.1
      have h : y' ^ 2 = 0 := by rw [this]; ring
      exact (pow_eq_zero_iff two_ne_zero).mp h
    exact Affine.Point.add_self_of_Y_eq (by rw [Montgomery.negY, hy, neg_zero])

end Hacspec.Props
