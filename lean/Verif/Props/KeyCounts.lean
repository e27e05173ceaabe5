import Verif.Props.PublicKeys
import Mathlib.Data.Set.Card

/-! # C142: how many public keys and common secrets there are -/

namespace Hacspec.Props

open SecretInt NatMod Hacspec.AbstractInt Spec WeierstrassCurve Hacspec.Ideal

theorem scalar_leBytes {m : Nat} (h1 : 2 ^ 251 ≤ m) (h2 : m < 2 ^ 252) : X25519.scalar (leBytes 32 (8 * m)) = 8 * m := by
  rw [X25519.scalar, leVal_leBytes, Nat.mod_eq_of_lt (show 8 * m < 256 ^ 32 by omega), Nat.mul_div_cancel_left _ (by decide)]
  omega

/-- Results for the scalars `8 m`. -/
def resultOf (u : List U8) (m : Nat) : M (List U8) := Curve25519.scalarmult (leBytes 32 (8 * m)) u

/-- The order of the group that the coordinate belongs to. -/
noncomputable def orderOfCoord (u : List U8) : Nat :=
  open Classical in
  if IsSquare ((X25519.coord u : ZMod X25519.p) ^ 3 + 486662 * (X25519.coord u : ZMod X25519.p) ^ 2 + (X25519.coord u : ZMod X25519.p))
    then X25519.order else X25519.twistOrder

theorem resultOf_eq {u : List U8} (hu : u.length = 32) (hl : X25519.coord u ∉ X25519.lowOrder) {m m' : Nat} (h1 : 2 ^ 251 ≤ m)
    (h2 : m < 2 ^ 252) (h1' : 2 ^ 251 ≤ m') (h2' : m' < 2 ^ 252) : resultOf u m = resultOf u m' ↔ m = m' ∨ m + m' = orderOfCoord u := by
  rw [resultOf, resultOf, C69_same_result _ _ u (length_leBytes _ _) (length_leBytes _ _) hu hl, scalar_leBytes h1 h2, scalar_leBytes h1' h2',
    orderOfCoord]
  omega

theorem range_result {u : List U8} (hu : u.length = 32) (hl : X25519.coord u ∉ X25519.lowOrder) :
    Set.range (fun s : Bytes 32 => Curve25519.scalarmult s.val u) = resultOf u '' Set.Ico (2 ^ 251) (2 ^ 252) := by
  ext r
  constructor
  · rintro ⟨s, rfl⟩
    obtain ⟨m, hm, h1, h2⟩ := scalar_eq' s.val
    refine ⟨m, ⟨h1, h2⟩, ?_⟩
    rw [resultOf, C69_same_result _ _ u (length_leBytes _ _) s.2 hu hl, scalar_leBytes h1 h2, hm]
    exact .inl rfl
  · rintro ⟨m, -, rfl⟩
    exact ⟨⟨leBytes 32 (8 * m), length_leBytes _ _⟩, rfl⟩

theorem ncard_image {α : Type} {f : Nat → α} {a b a' b' : Nat} (ha : a ≤ a') (hb : b' ≤ b) (hi : Set.InjOn f (Set.Ico a' b'))
    (hr : ∀ m, a ≤ m → m < b → ∃ m', a' ≤ m' ∧ m' < b' ∧ f m' = f m) : (f '' Set.Ico a b).ncard = b' - a' := by
  have e : f '' Set.Ico a b = f '' Set.Ico a' b' := by
    ext r
    constructor
    · rintro ⟨m, ⟨h1, h2⟩, rfl⟩
      obtain ⟨m', h3, h4, h5⟩ := hr m h1 h2
      exact ⟨m', ⟨h3, h4⟩, h5⟩
    · rintro ⟨m, ⟨h1, h2⟩, rfl⟩
      exact ⟨m, ⟨ha.trans h1, h2.trans_le hb⟩, rfl⟩
  rw [e, hi.ncard_image, Set.ncard_eq_toFinset_card', Set.toFinset_Ico, Nat.card_Ico]

/-- **C142.**  A coordinate of a point of the curve, outside those of small order, gives exactly `2^252 - (ℓ + 1) / 2` different results. -/
theorem C142_curve_results (u : List U8) (hu : u.length = 32) (hl : X25519.coord u ∉ X25519.lowOrder)
    (hs : IsSquare ((X25519.coord u : ZMod X25519.p) ^ 3 + 486662 * (X25519.coord u : ZMod X25519.p) ^ 2 + (X25519.coord u : ZMod X25519.p))) :
    (Set.range fun s : Bytes 32 => Curve25519.scalarmult s.val u).ncard = 2 ^ 252 - (X25519.order + 1) / 2 := by
  have ho : orderOfCoord u = X25519.order := if_pos hs
  have h1 : 2 ^ 252 < X25519.order := by decide +kernel
  have h2 : X25519.order < 2 ^ 252 + 2 ^ 251 := by decide +kernel
  have h3 : X25519.order % 2 = 1 := by decide +kernel
  generalize X25519.order = r at *
  rw [range_result hu hl]
  refine ncard_image (by omega) le_rfl (fun m hm m' hm' e => ?_) fun m hm hm' => ?_
  · obtain ⟨a1, a2⟩ := hm
    obtain ⟨a3, a4⟩ := hm'
    rw [resultOf_eq hu hl (by omega) a2 (by omega) a4, ho] at e
    omega
  · by_cases h : (r + 1) / 2 ≤ m
    · exact ⟨m, h, hm', rfl⟩
    · exact ⟨r - m, by omega, by omega, (resultOf_eq hu hl (by omega) (by omega) hm hm').mpr (.inr (by omega))⟩

/-- **C142.**  A coordinate of a point of the twist, outside those of small order, gives exactly `(ℓ' + 1) / 2 - 2^251` different results. -/
theorem C142_twist_results (u : List U8) (hu : u.length = 32) (hl : X25519.coord u ∉ X25519.lowOrder)
    (hs : ¬ IsSquare ((X25519.coord u : ZMod X25519.p) ^ 3 + 486662 * (X25519.coord u : ZMod X25519.p) ^ 2 + (X25519.coord u : ZMod X25519.p))) :
    (Set.range fun s : Bytes 32 => Curve25519.scalarmult s.val u).ncard = (X25519.twistOrder + 1) / 2 - 2 ^ 251 := by
  have ho : orderOfCoord u = X25519.twistOrder := if_neg hs
  have h1 : X25519.twistOrder < 2 ^ 253 := by decide +kernel
  have h2 : 2 ^ 252 + 2 ^ 251 < X25519.twistOrder := by decide +kernel
  have h3 : X25519.twistOrder % 2 = 1 := by decide +kernel
  generalize X25519.twistOrder = r at *
  rw [range_result hu hl]
  refine ncard_image le_rfl (by omega) (fun m hm m' hm' e => ?_) fun m hm hm' => ?_
  · obtain ⟨a1, a2⟩ := hm
    obtain ⟨a3, a4⟩ := hm'
    rw [resultOf_eq hu hl a1 (by omega) a3 (by omega), ho] at e
    omega
  · by_cases h : m < (r + 1) / 2
    · exact ⟨m, hm, h, rfl⟩
    · exact ⟨r - m, by omega, by omega, (resultOf_eq hu hl (by omega) (by omega) hm hm').mpr (.inr (by omega))⟩

/-- **C142.**  There are this many public keys of X25519: of the `2^251` clamped scalars, about `2^124` have the key of another one. -/
theorem C142_public_keys : (Set.range fun s : Bytes 32 => Curve25519.scalarmult s.val nine).ncard =
    2 ^ 251 - 13871158888686176767925968895441824247 := by
  have h9 : X25519.coord nine = 9 := by decide +kernel
  rw [C142_curve_results nine (by simp) (by rw [h9]; decide +kernel)]
  · decide +kernel
  · rw [h9]
    refine ⟨((14781619447589544791020593568409986887264606134616475288964881837755586237401 : Nat) : ZMod X25519.p), ?_⟩
    have := Montgomery.equation.mp base25519.1
    rw [← pow_two, this]
    norm_num

/-- **C142.**  `point_mul` has exactly `n` results, one of them for infinity, and they are those of the scalars below `n`. -/
theorem C142_p256_keys : {c : Nat × Nat | ∃ k x y, Reach 256 false k ∧ Hacspec.P256.pointMul k = .ok (x, y) ∧ c = (val x, val y)}.ncard =
    Spec.P256.n := by
  have hp : ∀ d : Fin Spec.P256.n, ∃ c : Nat × Nat, ∃ x y, Hacspec.P256.pointMul (AbstractInt.enc 256 d.val) = .ok (x, y) ∧
      Coords (d.val • baseP256) x y ∧ c = (val x, val y) := fun d => by
    obtain ⟨h1, h2⟩ := enc_reach_n d
    obtain ⟨x, y, h3, h4⟩ := point_mul_coords _ h1
    rw [h2] at h4
    exact ⟨_, x, y, h3, h4, rfl⟩
  choose f hf using hp
  have e : {c : Nat × Nat | ∃ k x y, Reach 256 false k ∧ Hacspec.P256.pointMul k = .ok (x, y) ∧ c = (val x, val y)} = f '' Set.univ := by
    ext c
    constructor
    · rintro ⟨k, x, y, hk, h, rfl⟩
      obtain ⟨x', y', h3, h4⟩ := point_mul_coords _ hk
      obtain ⟨rfl, rfl⟩ := Prod.mk.inj (Except.ok.inj (h.symm.trans h3))
      refine ⟨⟨val k % Spec.P256.n, Nat.mod_lt _ C66_order.2.1.pos⟩, trivial, ?_⟩
      obtain ⟨a, b, -, h5, h6⟩ := hf ⟨val k % Spec.P256.n, Nat.mod_lt _ C66_order.2.1.pos⟩
      have := (coords_inj h5 h4).mpr ((p256_smul_eq baseP256_ne _ _).mpr (Nat.mod_mod _ _))
      rw [h6, this.1, this.2]
    · rintro ⟨d, -, rfl⟩
      obtain ⟨x, y, h3, -, h5⟩ := hf d
      exact ⟨_, x, y, (enc_reach_n d).1, h3, h5⟩
  have hi : Set.InjOn f Set.univ := by
    intro d _ d' _ h
    obtain ⟨x, y, -, h1, h2⟩ := hf d
    obtain ⟨x', y', -, h1', h2'⟩ := hf d'
    rw [h2, h2'] at h
    have := (coords_inj h1 h1').mp (Prod.mk.inj h)
    rw [p256_smul_eq baseP256_ne, Nat.mod_eq_of_lt d.isLt, Nat.mod_eq_of_lt d'.isLt] at this
    exact Fin.ext this
  rw [e, hi.ncard_image, Set.ncard_univ, Nat.card_eq_fintype_card, Fintype.card_fin]

/-! ## Cases -/

/-- `2` is a coordinate of the twist. -/
theorem two_twist : ¬ IsSquare ((X25519.coord (leBytes 32 2) : ZMod X25519.p) ^ 3 + 486662 * (X25519.coord (leBytes 32 2) : ZMod X25519.p) ^ 2 +
    (X25519.coord (leBytes 32 2) : ZMod X25519.p)) := by
  have e : ((X25519.coord (leBytes 32 2) : ZMod X25519.p) ^ 3 + 486662 * (X25519.coord (leBytes 32 2) : ZMod X25519.p) ^ 2 +
      (X25519.coord (leBytes 32 2) : ZMod X25519.p)) = ((1946658 : Nat) : ZMod X25519.p) := by
    rw [show X25519.coord (leBytes 32 2) = 2 from by decide +kernel]
    norm_num
  have : Fact X25519.p.Prime := ⟨Primes.prime_25519⟩
  have h0 : ((1946658 : Nat) : ZMod X25519.p) ≠ 0 := by
    rw [Ne, ZMod.natCast_eq_zero_iff]
    decide +kernel
  have hc : AbstractInt.powMod 1946658 (X25519.p / 2) X25519.p % X25519.p ≠ 1 % X25519.p := by decide +kernel
  rw [e, ZMod.euler_criterion X25519.p h0]
  generalize X25519.p / 2 = k at hc ⊢
  intro h
  refine hc ?_
  rw [← ZMod.natCast_eq_natCast_iff', Curve25519.Order.cast_powMod, h, Nat.cast_one]

example : (Set.range fun s : Bytes 32 => Curve25519.scalarmult s.val (leBytes 32 2)).ncard = (X25519.twistOrder + 1) / 2 - 2 ^ 251 :=
  C142_twist_results (leBytes 32 2) (length_leBytes _ _) (by decide +kernel) two_twist

end Hacspec.Props
