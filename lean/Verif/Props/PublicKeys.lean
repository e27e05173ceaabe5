import Verif.Props.Channels

/-! # C141: which public keys give the same common secrets -/

namespace Hacspec.Props

open SecretInt NatMod Hacspec.AbstractInt Spec WeierstrassCurve Hacspec.Ideal
open Curve25519.Order (q0 ell ell')

/-- The `u`-coordinate of twice a point. -/
def doubleU {K : Type} [Field K] (x : K) : K := (x ^ 2 - 1) ^ 2 / (4 * x * (x ^ 2 + 486662 * x + 1))

theorem u_double {K : Type} [Field K] [DecidableEq K] (h2 : (2 : K) ≠ 0) (hA : (486662 : K) ^ 2 - 4 ≠ 0) {P : (X25519.curve K).Point}
    (h : 2 • P ≠ 0) : X25519.u (2 • P) = doubleU (X25519.u P) := by
  cases P with
  | zero => exact absurd (nsmul_zero 2) h
  | some x y hn =>
    have hr := Montgomery.rep_double h2 hA (P := .some x y hn) (X := x) (Z := 1) ⟨one_ne_zero, (mul_one _).symm⟩
    rw [two_nsmul] at h ⊢
    generalize Affine.Point.some x y hn + Affine.Point.some x y hn = R at *
    cases R with
    | zero => exact absurd rfl h
    | some a b hn' =>
      obtain ⟨hz, hx⟩ := hr
      change a = doubleU x
      have e : (x + 1) ^ 2 - (x - 1) * (x - 1) = 4 * x := by ring
      rw [e] at hz hx
      have e' : 4 * x * ((x + 1) ^ 2 + 121665 * (4 * x)) = 4 * x * (x ^ 2 + 486662 * x + 1) := by ring
      rw [e'] at hz hx
      rw [doubleU, eq_div_iff hz, ← hx]
      ring

theorem two_ne_k : (2 : K25519) ≠ 0 := by
  have : CharP K25519 Curve25519.F.n := by rw [Curve25519.F_n]; infer_instance
  exact Curve25519.two_ne

theorem a_ne_k : (486662 : K25519) ^ 2 - 4 ≠ 0 := by
  have : CharP K25519 Curve25519.F.n := by rw [Curve25519.F_n]; infer_instance
  exact Curve25519.A_ne

/-- Every string stands for a point, and all results are coordinates of its multiples. -/
theorem point_of [DecidableEq K25519] (u : List U8) (hu : u.length = 32) : ∃ P : (X25519.curve K25519).Point,
    P ≠ 0 ∧ X25519.u P = ((X25519.coord u : Nat) : K25519) ∧ (ell * ell') • 8 • P = 0 ∧ (8 • P = 0 ↔ X25519.coord u ∈ X25519.lowOrder) ∧
    ∀ s : List U8, s.length = 32 → (X25519.u (X25519.scalar s • P) = 0 ↔ X25519.coord u ∈ X25519.lowOrder) ∧
      ∃ v, Curve25519.scalarmult s u = .ok (leBytes 32 v) ∧ v < q0 ∧ ((v : Nat) : K25519) = X25519.u (X25519.scalar s • P) := by
  obtain ⟨y, hn⟩ := C52_point_exists (X25519.coord u)
  refine ⟨.some _ _ hn, Affine.Point.some_ne_zero _, rfl, ?_, small_point_iff _ (coord_lt_q0 u) hn, fun s hs =>
    ⟨u_smul_zero _ (coord_lt_q0 u) hn s, ?_⟩⟩
  · rcases kill _ hn with ⟨-, hk⟩ | ⟨-, hk⟩
    · rw [mul_comm, mul_smul, hk, nsmul_zero]
    · rw [mul_smul, hk, nsmul_zero]
  · obtain ⟨v, h1, h2, h3⟩ := C52_scalarmult s u hs hu
    rw [Curve25519.Order.p_eq] at h2
    exact ⟨v, h1, h2, h3 K25519 _ y hn rfl⟩

theorem leBytes_cast {v v' : Nat} (h : v < q0) (h' : v' < q0) :
    (.ok (leBytes 32 v) : M (List U8)) = .ok (leBytes 32 v') ↔ ((v : Nat) : K25519) = (v' : Nat) := by
  have h7 : q0 < 256 ^ 32 := by decide +kernel
  constructor
  · intro e
    have h6 := leBytes_inj (Except.ok.inj e)
    rw [Nat.mod_eq_of_lt (Nat.lt_trans h h7), Nat.mod_eq_of_lt (Nat.lt_trans h' h7)] at h6
    rw [h6]
  · intro e
    have := (CharP.natCast_eq_natCast K25519 q0).mp e
    rw [Nat.ModEq, Nat.mod_eq_of_lt h, Nat.mod_eq_of_lt h'] at this
    rw [this]

/-- A multiple of 8 that no prime order divides. -/
theorem smul_small {G : Type} [AddCommGroup G] {D : G} (h : (ell * ell') • 8 • D = 0) (s : List U8) :
    X25519.scalar s • D = 0 ↔ 8 • D = 0 := by
  obtain ⟨m, hm, h0, hlt⟩ := scalar_eq s
  rw [hm, mul_smul]
  constructor
  · intro e
    have h1 := addOrderOf_dvd_iff_nsmul_eq_zero.mpr h
    have h2 := addOrderOf_dvd_iff_nsmul_eq_zero.mpr e
    have c1 : Nat.Coprime ell m := (Nat.Prime.coprime_iff_not_dvd Primes.prime_25519_order).mpr fun hd => by
      have := Nat.le_of_dvd h0 hd
      have := ell_gt
      omega
    have c2 : Nat.Coprime ell' m := (Nat.Prime.coprime_iff_not_dvd Primes.prime_25519_twist).mpr fun hd => by
      have := Nat.le_of_dvd h0 hd
      have := ell'_gt
      omega
    have h3 := Nat.dvd_gcd h1 h2
    rw [Nat.Coprime.mul_left c1 c2, Nat.dvd_one] at h3
    exact AddMonoid.addOrderOf_eq_one_iff.mp h3
  · intro e
    rw [e, nsmul_zero]

/-- Equal or opposite multiples. -/
theorem smul_same {G : Type} [AddCommGroup G] {P P' : G} (h : (ell * ell') • 8 • P = 0) (h' : (ell * ell') • 8 • P' = 0) (s : List U8) :
    (X25519.scalar s • P = X25519.scalar s • P' ∨ X25519.scalar s • P = -(X25519.scalar s • P')) ↔
      ((8 : Nat) • P = (8 : Nat) • P' ∨ (8 : Nat) • P = -((8 : Nat) • P')) := by
  have h1 := smul_small (D := P - P') (by rw [nsmul_sub, nsmul_sub, h, h', sub_zero]) s
  have h2 := smul_small (D := P + P') (by rw [nsmul_add, nsmul_add, h, h', add_zero]) s
  rw [nsmul_sub, nsmul_sub, sub_eq_zero, sub_eq_zero] at h1
  rw [nsmul_add, nsmul_add, ← eq_neg_iff_add_eq_zero, ← eq_neg_iff_add_eq_zero] at h2
  rw [h1, h2]

/-- The same result for one secret is a statement about 8 times the points. -/
theorem same_eight [DecidableEq K25519] {u u' : List U8} (hu : u.length = 32) (hu' : u'.length = 32) (hl : X25519.coord u ∉ X25519.lowOrder)
    (hl' : X25519.coord u' ∉ X25519.lowOrder) : ∃ P P' : (X25519.curve K25519).Point, P ≠ 0 ∧ P' ≠ 0 ∧
      X25519.u P = ((X25519.coord u : Nat) : K25519) ∧ X25519.u P' = ((X25519.coord u' : Nat) : K25519) ∧ 8 • P ≠ 0 ∧ 8 • P' ≠ 0 ∧
      ∀ s : List U8, s.length = 32 → (Curve25519.scalarmult s u = Curve25519.scalarmult s u' ↔ X25519.u (8 • P) = X25519.u (8 • P')) := by
  obtain ⟨P, hP, e, hk, h8, h⟩ := point_of u hu
  obtain ⟨P', hP', e', hk', h8', h'⟩ := point_of u' hu'
  rw [← h8] at hl
  rw [← h8'] at hl'
  refine ⟨P, P', hP, hP', e, e', hl, hl', fun s hs => ?_⟩
  obtain ⟨-, v, h1, h2, h3⟩ := h s hs
  obtain ⟨-, v', h1', h2', h3'⟩ := h' s hs
  rw [h1, h1', leBytes_cast h2 h2', h3, h3', u_eq_iff ((smul_small hk s).not.mpr hl) ((smul_small hk' s).not.mpr hl'), smul_same hk hk',
    u_eq_iff hl hl']

theorem low_result {s u : List U8} (hs : s.length = 32) (hu : u.length = 32) (h : X25519.coord u ∈ X25519.lowOrder) :
    Curve25519.scalarmult s u = .ok (List.replicate 32 0) := (C68_zero_output s u hs hu).mpr h

/-- **C141.**  If two strings, whether they are public keys or not, give the same result for one secret, then they do for every secret. -/
theorem C141_one_all (s s' u u' : List U8) (hs : s.length = 32) (hs' : s'.length = 32) (hu : u.length = 32) (hu' : u'.length = 32)
    (h : Curve25519.scalarmult s u = Curve25519.scalarmult s u') : Curve25519.scalarmult s' u = Curve25519.scalarmult s' u' := by
  classical
  by_cases hl : X25519.coord u ∈ X25519.lowOrder
  · have hl' : X25519.coord u' ∈ X25519.lowOrder := by
      rw [← C68_zero_output s u' hs hu', ← h]
      exact low_result hs hu hl
    rw [low_result hs' hu hl, low_result hs' hu' hl']
  · have hl' : X25519.coord u' ∉ X25519.lowOrder := fun hc => hl (by
      rw [← C68_zero_output s u hs hu, h]
      exact low_result hs hu' hc)
    obtain ⟨P, P', -, -, -, -, -, -, hi⟩ := same_eight hu hu' hl hl'
    exact (hi s' hs').mpr ((hi s hs).mp h)

theorem double_map (x : ZMod X25519.p) : doubleU (algebraMap (ZMod X25519.p) K25519 x) = algebraMap (ZMod X25519.p) K25519 (doubleU x) := by
  simp only [doubleU, map_div₀, map_mul, map_add, map_sub, map_pow, map_one, map_ofNat]

theorem u_eight [DecidableEq K25519] {u : Nat} {P : (X25519.curve K25519).Point} (e : X25519.u P = (u : K25519)) (h : 8 • P ≠ 0) :
    X25519.u (8 • P) = algebraMap (ZMod X25519.p) K25519 (doubleU (doubleU (doubleU (u : ZMod X25519.p)))) := by
  have h4 : 2 • 2 • P ≠ 0 := fun hc => h (by rw [show 8 = 2 * (2 * 2) from rfl, mul_smul, mul_smul, hc, nsmul_zero])
  have h2 : 2 • P ≠ 0 := fun hc => h4 (by rw [hc, nsmul_zero])
  have h8 : 2 • 2 • 2 • P ≠ 0 := fun hc => h (by rw [show 8 = 2 * (2 * 2) from rfl, mul_smul, mul_smul, hc])
  rw [show 8 = 2 * (2 * 2) from rfl, mul_smul, mul_smul, u_double two_ne_k a_ne_k h8, u_double two_ne_k a_ne_k h4,
    u_double two_ne_k a_ne_k h2, e, ← map_natCast (algebraMap (ZMod X25519.p) K25519) u, double_map, double_map, double_map]

/-- **C141.**  Outside the five coordinates of small order, two strings give the same result exactly if the coordinates are the same after
doubling three times. -/
theorem C141_same_results (s u u' : List U8) (hs : s.length = 32) (hu : u.length = 32) (hu' : u'.length = 32)
    (hl : X25519.coord u ∉ X25519.lowOrder) (hl' : X25519.coord u' ∉ X25519.lowOrder) :
    Curve25519.scalarmult s u = Curve25519.scalarmult s u' ↔
      doubleU (doubleU (doubleU (X25519.coord u : ZMod X25519.p))) = doubleU (doubleU (doubleU (X25519.coord u' : ZMod X25519.p))) := by
  classical
  obtain ⟨P, P', -, -, e, e', h8, h8', hi⟩ := same_eight hu hu' hl hl'
  rw [hi s hs, u_eight e h8, u_eight e' h8']
  exact (algebraMap (ZMod X25519.p) K25519).injective.eq_iff

theorem doubleU_inv {K : Type} [Field K] {x x' : K} (h : x * x' = 1) : doubleU x = doubleU x' := by
  have hx : x ≠ 0 := left_ne_zero_of_mul_eq_one h
  obtain rfl : x' = x⁻¹ := (eq_inv_of_mul_eq_one_right h)
  have e1 : (x⁻¹ ^ 2 - 1) ^ 2 = (x ^ 2 - 1) ^ 2 * (x⁻¹) ^ 4 := by field_simp; ring
  have e2 : 4 * x⁻¹ * (x⁻¹ ^ 2 + 486662 * x⁻¹ + 1) = 4 * x * (x ^ 2 + 486662 * x + 1) * (x⁻¹) ^ 4 := by field_simp; ring
  rw [doubleU, doubleU, e1, e2, mul_div_mul_right _ _ (pow_ne_zero _ (inv_ne_zero hx))]

/-- The inverse of a coordinate of small order is one. -/
theorem lowOrder_inv {a b : Nat} (hb : b < X25519.p) (h : a * b % X25519.p = 1) (ha : a ∈ X25519.lowOrder) : b ∈ X25519.lowOrder := by
  have key : ∀ a' : Nat, a' ∈ X25519.lowOrder → a * a' % X25519.p = 1 → b = a' := by
    intro a' ha' e
    have hlt : a' < X25519.p := by
      have : ∀ x ∈ X25519.lowOrder, x < X25519.p := by decide +kernel
      exact this a' ha'
    have e1 : ((a * b : Nat) : ZMod X25519.p) = ((a * a' : Nat) : ZMod X25519.p) := by
      rw [ZMod.natCast_eq_natCast_iff', h, e]
    have h1 : ((a * a' : Nat) : ZMod X25519.p) = 1 := by
      rw [← Nat.cast_one, ZMod.natCast_eq_natCast_iff', e]
      decide +kernel
    rw [Nat.cast_mul, Nat.cast_mul] at e1
    rw [Nat.cast_mul] at h1
    have e2 := mul_left_cancel₀ (left_ne_zero_of_mul_eq_one h1) e1
    rw [ZMod.natCast_eq_natCast_iff', Nat.mod_eq_of_lt hb, Nat.mod_eq_of_lt hlt] at e2
    exact e2
  have all : ∀ x ∈ X25519.lowOrder, x = 0 ∨ ∃ y ∈ X25519.lowOrder, x * y % X25519.p = 1 := by decide +kernel
  rcases all a ha with rfl | ⟨y, hy, e⟩
  · rw [zero_mul] at h
    exact absurd h (by decide +kernel)
  · rw [key y hy e]
    exact hy

/-- **C141.**  A string and one for the inverse modulo `p` give the same results, for every secret: the result does not determine the public
key. -/
theorem C141_inverse (s u u' : List U8) (hs : s.length = 32) (hu : u.length = 32) (hu' : u'.length = 32)
    (h : X25519.coord u * X25519.coord u' % X25519.p = 1) : Curve25519.scalarmult s u = Curve25519.scalarmult s u' := by
  have hlt (u : List U8) : X25519.coord u < X25519.p := by rw [Curve25519.Order.p_eq]; exact coord_lt_q0 u
  by_cases hl : X25519.coord u ∈ X25519.lowOrder
  · rw [low_result hs hu hl, low_result hs hu' (lowOrder_inv (hlt u') h hl)]
  · have hl' : X25519.coord u' ∉ X25519.lowOrder := fun hc => hl (lowOrder_inv (hlt u) (by rw [mul_comm]; exact h) hc)
    rw [C141_same_results s u u' hs hu hu' hl hl', doubleU_inv (x := (X25519.coord u : ZMod X25519.p)) (x' := (X25519.coord u' : ZMod X25519.p))]
    rw [← Nat.cast_mul, ← Nat.cast_one, ZMod.natCast_eq_natCast_iff', h]
    decide +kernel

/-- **C141.**  Public keys that are made by `scalarmult` are determined by the result. -/
theorem C141_honest (s t t' : Bytes 32) (k k' : List U8) (hk : Curve25519.scalarmult t.val nine = .ok k)
    (hk' : Curve25519.scalarmult t'.val nine = .ok k') :
    Curve25519.scalarmult s.val k = Curve25519.scalarmult s.val k' ↔ k = k' := by
  refine ⟨fun h => ?_, fun h => by rw [h]⟩
  let B : Base25519 := ⟨_, base25519⟩
  obtain ⟨c, h1, h2, h3⟩ := C126_x25519_keys B t s
  obtain ⟨c', h1', h2', h3'⟩ := C126_x25519_keys B t' s
  obtain rfl := Except.ok.inj (hk.symm.trans h1)
  obtain rfl := Except.ok.inj (hk'.symm.trans h1')
  rw [h3, h3'] at h
  have hu := val_u_inj (Except.ok.inj h)
  have hQ : X25519.order • X25519.scalar s.val • B.point = 0 := by
    rw [← mul_nsmul, mul_comm, mul_nsmul, B.order, nsmul_zero]
  have e (t : Bytes 32) : (X25519.scalar t.val * X25519.scalar s.val) • B.point = X25519.scalar t.val • X25519.scalar s.val • B.point := by
    rw [mul_comm, mul_nsmul]
  rw [e, e, u_eq_iff (clamped_smul_ne hQ (B.smul_ne s) t) (clamped_smul_ne hQ (B.smul_ne s) t')] at hu
  rw [h2, h2']
  have hB := B.order
  have hB0 := B.ne
  have hs0 := B.smul_ne s
  have key : X25519.u (X25519.scalar t.val • B.point) = X25519.u (X25519.scalar t'.val • B.point) := by
    rw [u_eq_iff (B.smul_ne t) (B.smul_ne t')]
    rcases hu with e | e
    · left
      rw [nsmul_eq_nsmul_iff_modEq, addOrderOf_eq_prime hQ hs0] at e
      rw [nsmul_eq_nsmul_iff_modEq, addOrderOf_eq_prime hB hB0]
      exact e
    · right
      rw [eq_neg_iff_add_eq_zero, ← add_nsmul, ← addOrderOf_dvd_iff_nsmul_eq_zero, addOrderOf_eq_prime hQ hs0] at e
      rw [eq_neg_iff_add_eq_zero, ← add_nsmul, ← addOrderOf_dvd_iff_nsmul_eq_zero, addOrderOf_eq_prime hB hB0]
      exact e
  rw [key]

/-- **C141.**  On P-256 a multiple determines the point, and its `x` coordinate the point up to its sign, unless the scalar is a multiple of
the order. -/
theorem C141_p256 (k : Canvas) (hk : Reach 256 false k) (hn : ¬ Spec.P256.n ∣ val k) (j j' : Hacspec.P256.Jacobian) (P P' : P256Point)
    (hj : Represents j P) (hj' : Represents j' P') (hP : P ≠ 0) (hP' : P' ≠ 0) :
    ∃ r r' x y x' y', Hacspec.P256.montgomeryLadder k j = .ok r ∧ Hacspec.P256.montgomeryLadder k j' = .ok r' ∧
      Hacspec.P256.jacobianToAffine r = .ok (x, y) ∧ Hacspec.P256.jacobianToAffine r' = .ok (x', y') ∧
      (val x = val x' ↔ P = P' ∨ P = -P') ∧ (val x = val x' ∧ val y = val y' ↔ P = P') := by
  obtain ⟨r, h1, h2⟩ := C55_ladder k hk j P hj
  obtain ⟨r', h1', h2'⟩ := C55_ladder k hk j' P' hj'
  obtain ⟨x, y, h3, h4⟩ := to_affine_coords h2
  obtain ⟨x', y', h3', h4'⟩ := to_affine_coords h2'
  refine ⟨r, r', x, y, x', y', h1, h1', h3, h3', ?_⟩
  have inj (D : P256Point) : val k • D = 0 ↔ D = 0 := by
    by_cases hD : D = 0
    · simp [hD]
    · rw [p256_smul_eq_zero hD]
      simp [hD, hn]
  have e1 : val k • P = val k • P' ↔ P = P' := by
    rw [← sub_eq_zero, ← nsmul_sub, inj, sub_eq_zero]
  have e2 : val k • P = -(val k • P') ↔ P = -P' := by
    rw [eq_neg_iff_add_eq_zero, ← nsmul_add, inj, eq_neg_iff_add_eq_zero]
  refine ⟨?_, by rw [coords_inj h4 h4', e1]⟩
  rw [← e1, ← e2]
  have n1 : val k • P ≠ 0 := (inj P).not.mpr hP
  have n2 : val k • P' ≠ 0 := (inj P').not.mpr hP'
  generalize val k • P = Q at *
  generalize val k • P' = R at *
  cases Q with
  | zero => exact absurd rfl n1
  | some a b hn =>
    cases R with
    | zero => exact absurd rfl n2
    | some a' b' hn' =>
      obtain ⟨q0, -, q1, q2⟩ := h4
      obtain ⟨r0, -, r1, r2⟩ := h4'
      rw [Affine.Point.neg_some]
      constructor
      · intro e
        rw [e, r1] at q1
        subst q1
        rcases Affine.Y_eq_of_X_eq hn.1 hn'.1 rfl with h | h
        · subst h; exact Or.inl rfl
        · subst h; exact Or.inr rfl
      · intro h
        have : a = a' := by
          rcases h with h | h
          · exact ((Affine.Point.some.injEq ..).mp h).1
          · exact ((Affine.Point.some.injEq ..).mp h).1
        subst this
        exact val_cast_inj q0 r0 (q1.trans r1.symm)

/-! ## Cases -/

/-- The inverse of 9 modulo `p`. -/
def ninth : Nat := 32164469232587832062103051391302196625908329073789045566515995557753647122194

/-- **C141.**  The result does not determine the coordinate: `9` and `1/9` give the same. -/
theorem C141_key_refuted : ¬ ∀ s u u' : List U8, s.length = 32 → u.length = 32 → u'.length = 32 →
    Curve25519.scalarmult s u = Curve25519.scalarmult s u' → X25519.coord u = X25519.coord u' := by
  intro h
  have := h (List.replicate 32 0) nine (leBytes 32 ninth) (by simp) (by simp) (length_leBytes _ _)
    (C141_inverse _ _ _ (by simp) (by simp) (length_leBytes _ _) (by decide +kernel))
  exact absurd this (by decide +kernel)

/-- The hypotheses hold for `9` and `1/9`, which give the same results for all secrets. -/
example (s : List U8) (hs : s.length = 32) : Curve25519.scalarmult s nine = Curve25519.scalarmult s (leBytes 32 ninth) :=
  C141_one_all (List.replicate 32 0) s nine (leBytes 32 ninth) (by simp) hs (by simp) (length_leBytes _ _)
    (C141_inverse _ _ _ (by simp) (by simp) (length_leBytes _ _) (by decide +kernel))

example (s : List U8) (hs : s.length = 32) := C141_same_results s nine (leBytes 32 ninth) hs (by simp) (length_leBytes _ _) (by decide +kernel)
  (by decide +kernel)

example (s t t' : Bytes 32) : ∃ k k', Curve25519.scalarmult t.val nine = .ok k ∧ Curve25519.scalarmult t'.val nine = .ok k' ∧
    (Curve25519.scalarmult s.val k = Curve25519.scalarmult s.val k' ↔ k = k') := by
  obtain ⟨k, h, -⟩ := C126_x25519_keys ⟨_, base25519⟩ t s
  obtain ⟨k', h', -⟩ := C126_x25519_keys ⟨_, base25519⟩ t' s
  exact ⟨k, k', h, h', C141_honest s t t' k k' h h'⟩

/-- The base point and its opposite, which have the same multiples but for the sign of `y`. -/
example : ∃ j j', Represents j baseP256 ∧ Represents j' (-baseP256) ∧ baseP256 ≠ 0 ∧ -baseP256 ≠ 0 ∧ baseP256 ≠ -baseP256 := by
  have h2 : baseP256 ≠ -baseP256 := by
    have := (p256_smul_neg baseP256_ne 1 1).not.mpr (Nat.not_dvd_of_pos_of_lt (by decide) (by decide +kernel))
    simpa using this
  have rep : ∀ P : P256Point, P ≠ 0 → ∃ j, Represents j P := by
    intro P hP
    cases P with
    | zero => exact absurd rfl hP
    | some x y hn =>
      obtain ⟨j, hj, -⟩ := C54_representable x y hn 1 one_ne_zero
      exact ⟨j, hj⟩
  obtain ⟨j, hj⟩ := rep _ baseP256_ne
  obtain ⟨j', hj'⟩ := rep _ (neg_ne_zero.mpr baseP256_ne)
  exact ⟨j, j', hj, hj', baseP256_ne, neg_ne_zero.mpr baseP256_ne, h2⟩

end Hacspec.Props
