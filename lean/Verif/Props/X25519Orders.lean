import Verif.Lemmas.X25519Order
import Verif.Props.X25519s
import Mathlib.NumberTheory.LegendreSymbol.Basic

/-! # C68–C70: the orders of Curve25519 and its twist, and what they say about `scalarmult` -/

namespace Hacspec.Props

open SecretInt NatMod Hacspec.AbstractInt Spec WeierstrassCurve
open Curve25519.Order (q0 ell ell' u8 u8' plus minus)

/-- The algebraic closure of the prime field. -/
abbrev K25519 := AlgebraicClosure (ZMod X25519.p)

instance factPrimeQ0 : Fact q0.Prime := ⟨by rw [← Curve25519.Order.p_eq]; exact Primes.prime_25519⟩
instance charK25519 : CharP K25519 q0 := by rw [← Curve25519.Order.p_eq]; infer_instance

theorem exists_y (x : K25519) : ∃ y : K25519, y ^ 2 = x ^ 3 + 486662 * x ^ 2 + x :=
  IsAlgClosed.exists_pow_nat_eq _ (by norm_num)

/-! ## C70: the orders -/

/-- **C70.**  The curve over the prime field has `8 ℓ` points, `ℓ` is prime, and every point with `u = 9` has order `ℓ`. -/
theorem C70_order : Nat.card (X25519.curve (ZMod X25519.p)).Point = 8 * X25519.order ∧ X25519.order.Prime ∧
    ∀ (y : ZMod X25519.p) (h : (X25519.curve (ZMod X25519.p)).Nonsingular 9 y),
      addOrderOf (Affine.Point.some 9 y h) = X25519.order := by
  classical
  have h1 : X25519.order = ell := by decide +kernel
  have h2 := Curve25519.Order.card_prime_field (K := K25519) (q := q0)
  rw [(Curve25519.Order.cards exists_y).1] at h2
  rw [h1]
  refine ⟨?_, Primes.prime_25519_order, ?_⟩
  · have : ∀ q, q = q0 → ∀ [Fact q.Prime], Nat.card (X25519.curve (ZMod q)).Point = 8 * ell := by
      rintro q rfl _
      exact h2
    exact this _ Curve25519.Order.p_eq
  · intro y h
    have : Fact ell.Prime := ⟨Primes.prime_25519_order⟩
    have hc : CharP (ZMod X25519.p) q0 := by rw [← Curve25519.Order.p_eq]; infer_instance
    refine addOrderOf_eq_prime ?_ (Affine.Point.some_ne_zero _)
    have key : ∀ (x : ZMod X25519.p) (h : (X25519.curve (ZMod X25519.p)).Nonsingular x y), x = ((9 : Nat) : ZMod X25519.p) →
        ell • Affine.Point.some x y h = 0 := by
      rintro x h rfl
      rw [Curve25519.Order.ladderN_zero (q := q0) (k := ell) (by decide +kernel) Curve25519.Order.two_ne0
        Curve25519.Order.A_ne0 (Curve25519.Order.cast_ne (by decide +kernel)) (i := 253) (by decide +kernel)]
      exact Curve25519.Order.eval_base
    exact key 9 h (by norm_num)

/-- The base point of RFC 7748. -/
theorem base25519 : (X25519.curve (ZMod X25519.p)).Nonsingular 9
    ((14781619447589544791020593568409986887264606134616475288964881837755586237401 : Nat) : ZMod X25519.p) := by
  have : CharP (ZMod X25519.p) Curve25519.F.n := by rw [Curve25519.F_n]; infer_instance
  apply Curve25519.nonsingular
  have h := Curve25519.Order.cast_eq (K := ZMod X25519.p)
    (a := 14781619447589544791020593568409986887264606134616475288964881837755586237401 ^ 2)
    (b := 9 ^ 3 + 486662 * 9 ^ 2 + 9) (by decide +kernel)
  rw [Nat.cast_pow] at h
  rw [h]; norm_num

example := C70_order.2.2 _ base25519

/-! ## C68: the all-zero output -/

theorem scalar_eq (s : List U8) : ∃ m, X25519.scalar s = m * 8 ∧ 0 < m ∧ m < 2 ^ 252 := by
  refine ⟨2 ^ 251 + leVal s / 8 % 2 ^ 251, by rw [X25519.scalar]; ring, by positivity, ?_⟩
  have := Nat.mod_lt (leVal s / 8) (show 0 < 2 ^ 251 by norm_num)
  have e : (2 : Nat) ^ 252 = 2 * 2 ^ 251 := by norm_num
  omega

/-- A point with rational `u`-coordinate, after multiplication by 8, has prime order above `2^252`, or is 0. -/
theorem kill (u : Nat) {y : K25519} (h : (X25519.curve K25519).Nonsingular (u : K25519) y) [DecidableEq K25519] :
    (Affine.Point.some _ _ h ∈ plus K25519 q0 ∧ ell • 8 • Affine.Point.some _ _ h = 0) ∨
    (Affine.Point.some _ _ h ∈ minus K25519 q0 ∧ ell' • 8 • Affine.Point.some _ _ h = 0) := by
  rcases Curve25519.Order.mem_or (q := q0) h (Curve25519.Order.nat_pow u) with hm | hm
  · exact Or.inl ⟨hm, Curve25519.Order.kill_plus exists_y hm⟩
  · exact Or.inr ⟨hm, Curve25519.Order.kill_minus exists_y hm⟩

theorem coprime_smul {G : Type} [AddCommGroup G] {Q : G} {r m : Nat} (hr : r.Prime) (hQ : r • Q = 0) (hm : ¬ r ∣ m)
    (h : m • Q = 0) : Q = 0 := by
  have h1 := addOrderOf_dvd_iff_nsmul_eq_zero.mpr hQ
  have h2 := addOrderOf_dvd_iff_nsmul_eq_zero.mpr h
  have h3 := Nat.dvd_gcd h1 h2
  rw [(Nat.Prime.coprime_iff_not_dvd hr).mpr hm, Nat.dvd_one] at h3
  exact AddMonoid.addOrderOf_eq_one_iff.mp h3

theorem not_dvd_two_mul {r m : Nat} (hr : r.Prime) (hr2 : 2 ^ 252 < r) (h0 : 0 < m) (hm : m < 2 ^ 252) : ¬ r ∣ 2 * m := by
  intro h
  rcases hr.dvd_mul.mp h with h | h
  · have := Nat.le_of_dvd (by norm_num) h
    have : (2 : Nat) < 2 ^ 252 := by norm_num
    omega
  · have := Nat.le_of_dvd h0 h
    omega

theorem u_zero_iff {K : Type} [Field K] [DecidableEq K] (Q : (X25519.curve K).Point) (h : X25519.u Q = 0) : Q + Q = 0 := by
  cases Q with
  | zero => exact add_zero _
  | some x y hn =>
    have hx : x = 0 := h
    subst hx
    have hy : y = 0 := by
      have := Montgomery.equation.mp hn.1
      have h : y ^ 2 = 0 := by rw [this]; ring
      exact (pow_eq_zero_iff two_ne_zero).mp h
    exact Affine.Point.add_self_of_Y_eq (by rw [Montgomery.negY, hy, neg_zero])

theorem ell_gt : 2 ^ 252 < ell := by decide +kernel
theorem ell'_gt : 2 ^ 252 < ell' := by decide +kernel

theorem lowOrder_iff (u : Nat) :
    u ∈ X25519.lowOrder ↔ u = 0 ∨ u = 1 ∨ u = q0 - 1 ∨ u = u8 ∨ u = u8' := by
  rw [X25519.lowOrder, Curve25519.Order.p_eq]
  simp only [List.mem_cons, List.not_mem_nil, or_false]

theorem small_point_iff (u : Nat) (hu : u < q0) {y : K25519} (h : (X25519.curve K25519).Nonsingular (u : K25519) y)
    [DecidableEq K25519] : 8 • Affine.Point.some _ _ h = 0 ↔ u ∈ X25519.lowOrder := by
  rw [Curve25519.Order.small_iff hu, lowOrder_iff]

theorem coord_lt_q0 (u : List U8) : X25519.coord u < q0 := by
  rw [← Curve25519.Order.p_eq]; exact Nat.mod_lt _ (by decide +kernel)

theorem u_smul_zero (u : Nat) (hu : u < q0) {y : K25519} (h : (X25519.curve K25519).Nonsingular (u : K25519) y)
    [DecidableEq K25519] (s : List U8) :
    X25519.u (X25519.scalar s • Affine.Point.some _ _ h) = 0 ↔ u ∈ X25519.lowOrder := by
  obtain ⟨m, hm, h0, hlt⟩ := scalar_eq s
  rw [← small_point_iff u hu h, hm, mul_smul]
  constructor
  · intro hz
    have h2 := u_zero_iff _ hz
    rw [← add_nsmul, ← two_mul] at h2
    rcases kill u h with ⟨-, hk⟩ | ⟨-, hk⟩
    · exact coprime_smul Primes.prime_25519_order hk (not_dvd_two_mul Primes.prime_25519_order ell_gt h0 hlt) h2
    · exact coprime_smul Primes.prime_25519_twist hk (not_dvd_two_mul Primes.prime_25519_twist ell'_gt h0 hlt) h2
  · intro hz
    rw [hz, nsmul_zero]; rfl

/-- **C68.**  The result of `scalarmult` is the all-zero string exactly for five `u`-coordinates modulo `p`, whatever the
secret: the other points, of the curve and of its twist, always give a non-zero result. -/
theorem C68_zero_output (s u : List U8) (hs : s.length = 32) (hu : u.length = 32) :
    Curve25519.scalarmult s u = .ok (List.replicate 32 0) ↔ X25519.coord u ∈ X25519.lowOrder := by
  classical
  obtain ⟨v, h1, h2, h3⟩ := C52_scalarmult s u hs hu
  obtain ⟨y, hn⟩ := C52_point_exists (X25519.coord u)
  have h4 := h3 K25519 _ y hn rfl
  rw [← u_smul_zero _ (coord_lt_q0 u) hn s, ← h4, h1]
  have hv : v < q0 := by rw [← Curve25519.Order.p_eq]; exact h2
  have hz : ((v : Nat) : K25519) = 0 ↔ v = 0 :=
    ⟨fun h => NatEval.eq_zero_of_cast (K := K25519) hv h, fun h => by rw [h, Nat.cast_zero]⟩
  rw [hz]
  constructor
  · intro h
    have h5 : leBytes 32 v = leBytes 32 0 := by rw [Except.ok.inj h]; decide
    have h6 := leBytes_inj h5
    have h7 : q0 < 256 ^ 32 := by decide +kernel
    rwa [Nat.mod_eq_of_lt (Nat.lt_trans hv h7), Nat.zero_mod] at h6
  · rintro rfl
    decide

/-- The base point and the points with `u = 2` (on the twist) never give zero; a point of order 8 always does. -/
example (s : List U8) (hs : s.length = 32) :
    Curve25519.scalarmult s (9 :: List.replicate 31 0) ≠ .ok (List.replicate 32 0) ∧
    Curve25519.scalarmult s (2 :: List.replicate 31 0) ≠ .ok (List.replicate 32 0) ∧
    Curve25519.scalarmult s (leBytes 32 u8) = .ok (List.replicate 32 0) := by
  refine ⟨?_, ?_, ?_⟩
  · rw [ne_eq, C68_zero_output s _ hs (by simp)]; decide +kernel
  · rw [ne_eq, C68_zero_output s _ hs (by simp)]; decide +kernel
  · rw [C68_zero_output s _ hs (length_leBytes _ _)]; decide +kernel

/-! ## C69: when two secrets give the same result -/

/-- The prime order of eight times a point with the given `u`-coordinate. -/
theorem twist_order_eq : X25519.twistOrder = ell' := by decide +kernel
theorem order_eq : X25519.order = ell := by decide +kernel

theorem plus_square (u : Nat) {y : K25519} (h : (X25519.curve K25519).Nonsingular (u : K25519) y) [DecidableEq K25519]
    (hm : Affine.Point.some _ _ h ∈ plus K25519 q0) :
    IsSquare ((u : ZMod X25519.p) ^ 3 + 486662 * (u : ZMod X25519.p) ^ 2 + (u : ZMod X25519.p)) := by
  classical
  have hy := (Curve25519.Order.mem_plus.mp hm).2
  rw [← Curve25519.Order.p_eq] at hy
  obtain ⟨z, hz⟩ := Curve25519.Order.base_surj (K := K25519) (q := X25519.p) hy
  refine ⟨z, (ZMod.castHom (dvd_refl X25519.p) K25519).injective ?_⟩
  rw [map_mul, hz, ← pow_two, Montgomery.equation.mp h.1]
  simp only [map_add, map_mul, map_pow, map_natCast, map_ofNat]

theorem minus_square (u : Nat) {y : K25519} (h : (X25519.curve K25519).Nonsingular (u : K25519) y) [DecidableEq K25519]
    (hm : Affine.Point.some _ _ h ∈ minus K25519 q0)
    (hs : IsSquare ((u : ZMod X25519.p) ^ 3 + 486662 * (u : ZMod X25519.p) ^ 2 + (u : ZMod X25519.p))) :
    8 • Affine.Point.some _ _ h = 0 := by
  obtain ⟨z, hz⟩ := hs
  have h1 := congrArg (ZMod.castHom (dvd_refl X25519.p) K25519) hz
  simp only [map_add, map_mul, map_pow, map_natCast, map_ofNat] at h1
  rw [← Montgomery.equation.mp h.1, ← pow_two] at h1
  have hz2 : (ZMod.castHom (dvd_refl X25519.p) K25519 z) ^ q0 = ZMod.castHom (dvd_refl X25519.p) K25519 z := by
    rw [← Curve25519.Order.p_eq, ← map_pow, ZMod.pow_card]
  have hodd : Odd q0 := by decide +kernel
  have hy : y ^ q0 = y := by
    rcases sq_eq_sq_iff_eq_or_eq_neg.mp h1 with e | e
    · rw [e, hz2]
    · rw [e, hodd.neg_pow, hz2]
  have hn := (Curve25519.Order.mem_minus.mp hm).2
  rw [hy] at hn
  have h2 : Affine.Point.some _ _ h + Affine.Point.some _ _ h = 0 :=
    Affine.Point.add_self_of_Y_eq (by rw [Montgomery.negY]; exact hn)
  rw [show 8 = 4 * 2 from rfl, mul_smul, two_nsmul, h2, nsmul_zero]

/-- Two finite points with the same `u`-coordinate are equal or opposite. -/
theorem u_eq_iff {K : Type} [Field K] [DecidableEq K] {P Q : (X25519.curve K).Point} (hP : P ≠ 0) (hQ : Q ≠ 0) :
    X25519.u P = X25519.u Q ↔ P = Q ∨ P = -Q := by
  constructor
  · intro h
    cases P with
    | zero => exact absurd rfl hP
    | some x y hn =>
      cases Q with
      | zero => exact absurd rfl hQ
      | some x' y' hn' =>
        have hx : x = x' := h
        subst hx
        have e : y ^ 2 = y' ^ 2 := by rw [Montgomery.equation.mp hn.1, Montgomery.equation.mp hn'.1]
        rcases sq_eq_sq_iff_eq_or_eq_neg.mp e with e | e
        · subst e; exact Or.inl rfl
        · right
          rw [Affine.Point.neg_some, Affine.Point.some.injEq, Montgomery.negY]
          exact ⟨rfl, e⟩
  · rintro (rfl | rfl)
    · rfl
    · cases Q with
      | zero => rfl
      | some x y hn => rw [Affine.Point.neg_some]; rfl

theorem u_smul_eq_iff {G : Type} [AddCommGroup G] {Q : G} {r m m' : Nat} (hr : r.Prime) (hQ : r • Q = 0) (h0 : Q ≠ 0)
    (hr2 : 2 ^ 252 < r) (hm : 2 ^ 251 ≤ m) (hm2 : m < 2 ^ 252) (hm' : 2 ^ 251 ≤ m') (hm2' : m' < 2 ^ 252) :
    (m • Q = m' • Q ∨ m • Q = -(m' • Q)) ↔ m = m' ∨ m + m' = r := by
  have ho : addOrderOf Q = r := by
    have : Fact r.Prime := ⟨hr⟩
    exact addOrderOf_eq_prime hQ h0
  have e : (2 : Nat) ^ 252 = 2 * 2 ^ 251 := by norm_num
  have h1 : m • Q = m' • Q ↔ m = m' := by
    refine ⟨fun h => ?_, fun h => by rw [h]⟩
    exact nsmul_injOn_Iio_addOrderOf (by rw [Set.mem_Iio, ho]; omega) (by rw [Set.mem_Iio, ho]; omega) h
  have h2 : m • Q = -(m' • Q) ↔ m + m' = r := by
    rw [eq_neg_iff_add_eq_zero, ← add_nsmul, ← addOrderOf_dvd_iff_nsmul_eq_zero, ho]
    refine ⟨?_, fun h => by rw [h]⟩
    rintro ⟨c, hc⟩
    have : c = 1 := by
      rcases Nat.lt_or_ge c 1 with h | h
      · have : c = 0 := by omega
        subst this
        have : (0 : Nat) < 2 ^ 251 := by norm_num
        omega
      rcases Nat.lt_or_ge c 2 with h2 | h2
      · omega
      · have := Nat.mul_le_mul_left r h2
        omega
    rw [hc, this, mul_one]
  rw [h1, h2]

theorem scalar_eq' (s : List U8) : ∃ m, X25519.scalar s = 8 * m ∧ 2 ^ 251 ≤ m ∧ m < 2 ^ 252 := by
  refine ⟨2 ^ 251 + leVal s / 8 % 2 ^ 251, by rw [X25519.scalar]; ring, Nat.le_add_right _ _, ?_⟩
  have := Nat.mod_lt (leVal s / 8) (show 0 < 2 ^ 251 by norm_num)
  have e : (2 : Nat) ^ 252 = 2 * 2 ^ 251 := by norm_num
  omega

open Classical in
/-- **C69.**  Outside the five coordinates of small order, two secrets give the same result exactly when their clamped
scalars are equal or opposite modulo the order of the group — that of the curve or that of its twist, according to
whether the given coordinate belongs to a point of the curve. -/
theorem C69_same_result (s s' u : List U8) (hs : s.length = 32) (hs' : s'.length = 32) (hu : u.length = 32)
    (hlow : X25519.coord u ∉ X25519.lowOrder) :
    Curve25519.scalarmult s u = Curve25519.scalarmult s' u ↔
      X25519.scalar s = X25519.scalar s' ∨
      X25519.scalar s + X25519.scalar s' =
        8 * (if IsSquare ((X25519.coord u : ZMod X25519.p) ^ 3 + 486662 * (X25519.coord u : ZMod X25519.p) ^ 2
          + (X25519.coord u : ZMod X25519.p)) then X25519.order else X25519.twistOrder) := by
  obtain ⟨v, h1, h2, h3⟩ := C52_scalarmult s u hs hu
  obtain ⟨v', h1', h2', h3'⟩ := C52_scalarmult s' u hs' hu
  obtain ⟨y, hn⟩ := C52_point_exists (X25519.coord u)
  have h4 := h3 K25519 _ y hn rfl
  have h4' := h3' K25519 _ y hn rfl
  rw [Curve25519.Order.p_eq] at h2 h2'
  have h7 : q0 < 256 ^ 32 := by decide +kernel
  have hv : Curve25519.scalarmult s u = Curve25519.scalarmult s' u ↔ ((v : Nat) : K25519) = (v' : Nat) := by
    rw [h1, h1']
    constructor
    · intro h
      have h6 := leBytes_inj (Except.ok.inj h)
      rw [Nat.mod_eq_of_lt (Nat.lt_trans h2 h7), Nat.mod_eq_of_lt (Nat.lt_trans h2' h7)] at h6
      rw [h6]
    · intro h
      have := (CharP.natCast_eq_natCast K25519 q0).mp h
      rw [Nat.ModEq, Nat.mod_eq_of_lt h2, Nat.mod_eq_of_lt h2'] at this
      rw [this]
  have h8 : 8 • Affine.Point.some _ _ hn ≠ 0 := fun h => hlow ((small_point_iff _ (coord_lt_q0 u) hn).mp h)
  have hnz : ∀ s : List U8, X25519.scalar s • Affine.Point.some _ _ hn ≠ 0 := by
    intro s h
    refine hlow ((u_smul_zero _ (coord_lt_q0 u) hn s).mp ?_)
    rw [h]; rfl
  obtain ⟨m, hm, hm1, hm2⟩ := scalar_eq' s
  obtain ⟨m', hm', hm1', hm2'⟩ := scalar_eq' s'
  rw [hv, h4, h4', u_eq_iff (hnz s) (hnz s'), hm, hm', mul_comm 8 m, mul_comm 8 m', mul_smul, mul_smul]
  have fin : ∀ r, m * 8 = m' * 8 ∨ m * 8 + m' * 8 = 8 * r ↔ m = m' ∨ m + m' = r := by intro r; omega
  rw [fin]
  rcases kill _ hn with ⟨hmem, hk⟩ | ⟨hmem, hk⟩
  · rw [if_pos (plus_square _ hn hmem), order_eq]
    exact u_smul_eq_iff Primes.prime_25519_order hk h8 ell_gt hm1 hm2 hm1' hm2'
  · rw [if_neg (fun h => h8 (minus_square _ hn hmem h)), twist_order_eq]
    exact u_smul_eq_iff Primes.prime_25519_twist hk h8 ell'_gt hm1 hm2 hm1' hm2'

/-- **C70.**  Two secrets have the same public key exactly when their clamped scalars agree or add up to `8 ℓ`. -/
theorem C70_public_key (s s' : List U8) (hs : s.length = 32) (hs' : s'.length = 32) :
    Curve25519.scalarmult s (9 :: List.replicate 31 0) = Curve25519.scalarmult s' (9 :: List.replicate 31 0) ↔
      X25519.scalar s = X25519.scalar s' ∨ X25519.scalar s + X25519.scalar s' = 8 * X25519.order := by
  have h9 : X25519.coord (9 :: List.replicate 31 0) = 9 := by decide +kernel
  rw [C69_same_result s s' _ hs hs' (by simp) (by rw [h9]; decide +kernel), h9, if_pos]
  refine ⟨((14781619447589544791020593568409986887264606134616475288964881837755586237401 : Nat) : ZMod X25519.p), ?_⟩
  have := Montgomery.equation.mp base25519.1
  rw [← pow_two, this]
  norm_num

/-- Two different secrets with the same public key, and two with different ones. -/
example :
    Curve25519.scalarmult (leBytes 32 (2 ^ 254)) (9 :: List.replicate 31 0)
      = Curve25519.scalarmult (leBytes 32 (8 * (ell - 2 ^ 251))) (9 :: List.replicate 31 0) ∧
    leBytes 32 (2 ^ 254) ≠ leBytes 32 (8 * (ell - 2 ^ 251)) ∧
    Curve25519.scalarmult (leBytes 32 (2 ^ 254)) (9 :: List.replicate 31 0)
      ≠ Curve25519.scalarmult (leBytes 32 (2 ^ 254 + 8)) (9 :: List.replicate 31 0) := by
  refine ⟨?_, by decide +kernel, ?_⟩
  · rw [C70_public_key _ _ (length_leBytes _ _) (length_leBytes _ _)]; decide +kernel
  · rw [ne_eq, C70_public_key _ _ (length_leBytes _ _) (length_leBytes _ _)]; decide +kernel

end Hacspec.Props
