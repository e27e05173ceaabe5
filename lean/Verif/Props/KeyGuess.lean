import Verif.Props.KeyCounts

/-! # C144: how many secrets give a result, and how well a result can be guessed -/

namespace Hacspec.Props

open SecretInt NatMod Hacspec.AbstractInt Spec WeierstrassCurve Hacspec.Ideal

/-- Strings are counted as numbers. -/
theorem ncard_strings (n : Nat) (p : Nat → Prop) : {s : Bytes n | p (leVal s.val)}.ncard = {v : Nat | v < 256 ^ n ∧ p v}.ncard := by
  have e : {v : Nat | v < 256 ^ n ∧ p v} = (fun s : Bytes n => leVal s.val) '' {s : Bytes n | p (leVal s.val)} := by
    ext v
    constructor
    · rintro ⟨h1, h2⟩
      have h3 : leVal (leBytes n v) = v := by rw [leVal_leBytes, Nat.mod_eq_of_lt h1]
      exact ⟨⟨leBytes n v, length_leBytes _ _⟩, by
        change p (leVal (leBytes n v))
        rwa [h3], h3⟩
    · rintro ⟨s, h, rfl⟩
      exact ⟨(leVal_lt s.val).trans_eq (by rw [s.2]), h⟩
  rw [e, Set.InjOn.ncard_image]
  intro s _ s' _ h
  dsimp only at h
  exact Subtype.ext (Universal.leVal_inj (s.2.trans s'.2.symm) h)

/-- A scalar comes from 32 secrets. -/
theorem ncard_scalar {m : Nat} (h1 : 2 ^ 251 ≤ m) (h2 : m < 2 ^ 252) : {s : Bytes 32 | X25519.scalar s.val = 8 * m}.ncard = 32 := by
  have e := ncard_strings 32 fun v => 2 ^ 254 + 8 * (v / 8 % 2 ^ 251) = 8 * m
  have e' : {s : Bytes 32 | X25519.scalar s.val = 8 * m} = {s : Bytes 32 | 2 ^ 254 + 8 * (leVal s.val / 8 % 2 ^ 251) = 8 * m} := rfl
  rw [e', e]
  have g : {v : Nat | v < 256 ^ 32 ∧ 2 ^ 254 + 8 * (v / 8 % 2 ^ 251) = 8 * m} =
      (fun i => i % 8 + 8 * (m - 2 ^ 251) + 2 ^ 254 * (i / 8)) '' Set.Ico 0 32 := by
    ext v
    constructor
    · rintro ⟨a, b⟩
      refine ⟨v % 8 + 8 * (v / 2 ^ 254), ⟨Nat.zero_le _, by omega⟩, ?_⟩
      dsimp only
      omega
    · rintro ⟨i, ⟨-, hi⟩, rfl⟩
      dsimp only
      refine ⟨by omega, by omega⟩
  rw [g, Set.InjOn.ncard_image, Set.ncard_eq_toFinset_card', Set.toFinset_Ico, Nat.card_Ico]
  intro i hi j hj h
  obtain ⟨-, hi⟩ := hi
  obtain ⟨-, hj⟩ := hj
  dsimp only at h
  omega

open Classical in
/-- **C144.**  The result of a secret is that of 64 of the `2^256` secrets if the opposite of its scalar, modulo the order of the group,
is a clamped scalar, and of 32 if it is not. -/
theorem C144_secrets (s u : List U8) (hs : s.length = 32) (hu : u.length = 32) (hl : X25519.coord u ∉ X25519.lowOrder) :
    {t : Bytes 32 | Curve25519.scalarmult t.val u = Curve25519.scalarmult s u}.ncard =
      if ∃ t : Bytes 32, X25519.scalar t.val + X25519.scalar s =
        8 * (if IsSquare ((X25519.coord u : ZMod X25519.p) ^ 3 + 486662 * (X25519.coord u : ZMod X25519.p) ^ 2 + (X25519.coord u : ZMod X25519.p))
          then X25519.order else X25519.twistOrder) then 64 else 32 := by
  have hodd : X25519.order % 2 = 1 ∧ X25519.twistOrder % 2 = 1 := by decide +kernel
  have ho : (if IsSquare ((X25519.coord u : ZMod X25519.p) ^ 3 + 486662 * (X25519.coord u : ZMod X25519.p) ^ 2 + (X25519.coord u : ZMod X25519.p))
          then X25519.order else X25519.twistOrder) % 2 = 1 := by
    split
    · exact hodd.1
    · exact hodd.2
  have hset : {t : Bytes 32 | Curve25519.scalarmult t.val u = Curve25519.scalarmult s u} =
      {t : Bytes 32 | X25519.scalar t.val = X25519.scalar s ∨ X25519.scalar t.val + X25519.scalar s =
        8 * (if IsSquare ((X25519.coord u : ZMod X25519.p) ^ 3 + 486662 * (X25519.coord u : ZMod X25519.p) ^ 2 + (X25519.coord u : ZMod X25519.p))
          then X25519.order else X25519.twistOrder)} := by
    ext t
    exact C69_same_result _ _ u t.2 hs hu hl
  rw [hset]
  generalize (if IsSquare ((X25519.coord u : ZMod X25519.p) ^ 3 + 486662 * (X25519.coord u : ZMod X25519.p) ^ 2 + (X25519.coord u : ZMod X25519.p))
    then X25519.order else X25519.twistOrder) = r at ho ⊢
  obtain ⟨m, hm, h1, h2⟩ := scalar_eq' s
  rw [hm]
  split
  · rename_i h
    obtain ⟨t, ht⟩ := h
    obtain ⟨m', hm', h1', h2'⟩ := scalar_eq' t.val
    rw [hm'] at ht
    have e : {t : Bytes 32 | X25519.scalar t.val = 8 * m ∨ X25519.scalar t.val + 8 * m = 8 * r} =
        {t : Bytes 32 | X25519.scalar t.val = 8 * m} ∪ {t : Bytes 32 | X25519.scalar t.val = 8 * m'} := by
      ext t
      change (_ ∨ _) ↔ (_ ∨ _)
      constructor <;> rintro (h | h)
      · exact .inl h
      · exact .inr (show X25519.scalar t.val = 8 * m' by omega)
      · exact .inl h
      · exact .inr (by rw [show X25519.scalar t.val = 8 * m' from h]; exact ht)
    rw [e, Set.ncard_union_eq ?_ (Set.toFinite _) (Set.toFinite _), ncard_scalar h1 h2, ncard_scalar h1' h2']
    rw [Set.disjoint_left]
    intro t (a : X25519.scalar t.val = 8 * m) (b : X25519.scalar t.val = 8 * m')
    omega
  · rename_i h
    have e : {t : Bytes 32 | X25519.scalar t.val = 8 * m ∨ X25519.scalar t.val + 8 * m = 8 * r} =
        {t : Bytes 32 | X25519.scalar t.val = 8 * m} := by
      ext t
      exact ⟨fun g => g.resolve_right fun g => h ⟨t, g⟩, .inl⟩
    rw [e, ncard_scalar h1 h2]

/-- **C144.**  Whatever set of results is guessed, at most 64 secrets out of `2^256` for each guess have a result in it. -/
theorem C144_guess (u : List U8) (hu : u.length = 32) (hl : X25519.coord u ∉ X25519.lowOrder) (G : Finset (List U8)) :
    {t : Bytes 32 | ∃ g ∈ G, Curve25519.scalarmult t.val u = .ok g}.ncard ≤ 64 * G.card := by
  classical
  rw [Set.ncard_eq_toFinset_card']
  have hb := Finset.card_le_mul_card_image_of_maps_to (s := {t : Bytes 32 | ∃ g ∈ G, Curve25519.scalarmult t.val u = .ok g}.toFinset)
    (t := G.image (Except.ok : List U8 → M (List U8))) (f := fun t => Curve25519.scalarmult t.val u) (fun t ht => by
      obtain ⟨g, hg, e⟩ := Set.mem_toFinset.mp ht
      exact Finset.mem_image.mpr ⟨g, hg, e.symm⟩) 64 (fun b _ => by
      by_cases hx : ∃ s : Bytes 32, Curve25519.scalarmult s.val u = b
      · obtain ⟨s, rfl⟩ := hx
        have h := C144_secrets s.val u s.2 hu hl
        rw [Set.ncard_eq_toFinset_card'] at h
        refine (Finset.card_le_card fun t ht => ?_).trans (h.trans_le ?_)
        · exact Set.mem_toFinset.mpr (Finset.mem_filter.mp ht).2
        · split <;> split <;> omega
      · rw [Finset.card_eq_zero.mpr]
        · exact Nat.zero_le _
        · exact Finset.filter_eq_empty_iff.mpr fun t _ h => hx ⟨t, h⟩)
  exact hb.trans (Nat.mul_le_mul_left _ Finset.card_image_le)

/-- **C144.**  For a coordinate of small order one guess is right for all secrets. -/
theorem C144_small_refuted : ∃ u : List U8, u.length = 32 ∧
    {t : Bytes 32 | ∃ g ∈ ({List.replicate 32 0} : Finset (List U8)), Curve25519.scalarmult t.val u = .ok g} = Set.univ := by
  refine ⟨leBytes 32 1, length_leBytes _ _, Set.eq_univ_of_forall fun t => ⟨_, Finset.mem_singleton_self _, ?_⟩⟩
  exact low_result t.2 (length_leBytes _ _) (by decide +kernel)

/-- The coordinates of a result of `point_mul`. -/
def coordsOf (r : M (Canvas × Canvas)) : Option (Nat × Nat) :=
  match r with
  | .ok (x, y) => some (val x, val y)
  | .error _ => none

theorem coordsOf_eq {k l : Nat} (hk : k + 1 < 2 ^ 256) (hl : l + 1 < 2 ^ 256) :
    coordsOf (Hacspec.P256.pointMul (AbstractInt.enc 256 k)) = coordsOf (Hacspec.P256.pointMul (AbstractInt.enc 256 l)) ↔
      k % Spec.P256.n = l % Spec.P256.n := by
  obtain ⟨x, y, x', y', h1, h2, h3⟩ := C66_point_mul_eq (AbstractInt.enc 256 k) (AbstractInt.enc 256 l)
    (Reach.ofBig k _ (AbstractInt.fromBig_ok (inRange_nat hk))) (Reach.ofBig l _ (AbstractInt.fromBig_ok (inRange_nat hl)))
  rw [show val (AbstractInt.enc 256 k) = k from toBigUint_enc 256 k, show val (AbstractInt.enc 256 l) = l from toBigUint_enc 256 l] at h3
  rw [← h3, h1, h2, coordsOf, coordsOf, Option.some_inj, Prod.mk.injEq]

/-- **C144.**  A point is the result of `point_mul` for one or two of the scalars that the type can hold. -/
theorem C144_p256 (l : Nat) (hl : l + 1 < 2 ^ 256) :
    {k : Nat | k + 1 < 2 ^ 256 ∧ coordsOf (Hacspec.P256.pointMul (AbstractInt.enc 256 k)) =
      coordsOf (Hacspec.P256.pointMul (AbstractInt.enc 256 l))}.ncard = if l % Spec.P256.n + Spec.P256.n + 1 < 2 ^ 256 then 2 else 1 := by
  have hn : 2 ^ 255 < Spec.P256.n ∧ Spec.P256.n < 2 ^ 256 := by decide +kernel
  have e : {k : Nat | k + 1 < 2 ^ 256 ∧ coordsOf (Hacspec.P256.pointMul (AbstractInt.enc 256 k)) =
      coordsOf (Hacspec.P256.pointMul (AbstractInt.enc 256 l))} = {k : Nat | k + 1 < 2 ^ 256 ∧ k % Spec.P256.n = l % Spec.P256.n} := by
    ext k
    exact ⟨fun h => ⟨h.1, (coordsOf_eq h.1 hl).mp h.2⟩, fun h => ⟨h.1, (coordsOf_eq h.1 hl).mpr h.2⟩⟩
  rw [e]
  generalize Spec.P256.n = n at *
  have hd : l % n < n := Nat.mod_lt _ (by omega)
  have hle : l % n ≤ l := Nat.mod_le _ _
  generalize l % n = d at *
  have hk (k : Nat) : k + 1 < 2 ^ 256 ∧ k % n = d ↔ k + 1 < 2 ^ 256 ∧ (k = d ∨ k = n + d) := by
    constructor
    · rintro ⟨h, g⟩
      refine ⟨h, ?_⟩
      rcases Nat.lt_or_ge k n with h1 | h1
      · rw [Nat.mod_eq_of_lt h1] at g
        exact .inl g
      · rw [Nat.mod_eq_sub_mod h1, Nat.mod_eq_of_lt (by omega)] at g
        exact .inr (by omega)
    · rintro ⟨h, rfl | rfl⟩
      · exact ⟨h, Nat.mod_eq_of_lt hd⟩
      · exact ⟨h, by rw [Nat.add_mod_left, Nat.mod_eq_of_lt hd]⟩
  split
  · rw [show {k : Nat | k + 1 < 2 ^ 256 ∧ k % n = d} = {d, n + d} from Set.ext fun k => (hk k).trans (by
      change _ ↔ (k = d ∨ k = n + d)
      omega), Set.ncard_pair (by omega)]
  · rw [show {k : Nat | k + 1 < 2 ^ 256 ∧ k % n = d} = {d} from Set.ext fun k => (hk k).trans (by
      change _ ↔ k = d
      omega), Set.ncard_singleton]

theorem ncard_nine {m : Nat} (h1 : 2 ^ 251 ≤ m) (h2 : m < 2 ^ 252) :
    {t : Bytes 32 | Curve25519.scalarmult t.val nine = Curve25519.scalarmult (leBytes 32 (8 * m)) nine}.ncard =
      if m + 2 ^ 251 ≤ X25519.order then 64 else 32 := by
  have h9 : X25519.coord nine = 9 := by decide +kernel
  have hq : IsSquare ((X25519.coord nine : ZMod X25519.p) ^ 3 + 486662 * (X25519.coord nine : ZMod X25519.p) ^ 2 +
      (X25519.coord nine : ZMod X25519.p)) := by
    rw [h9]
    refine ⟨((14781619447589544791020593568409986887264606134616475288964881837755586237401 : Nat) : ZMod X25519.p), ?_⟩
    have := Montgomery.equation.mp base25519.1
    rw [← pow_two, this]
    norm_num
  have hr : X25519.order < 2 ^ 252 + 2 ^ 251 := by decide +kernel
  rw [C144_secrets _ nine (length_leBytes _ _) (by simp) (by rw [h9]; decide +kernel), if_pos hq, scalar_leBytes h1 h2]
  generalize X25519.order = r at hr ⊢
  refine if_congr ⟨?_, fun h => ?_⟩ rfl rfl
  · rintro ⟨t, ht⟩
    obtain ⟨m', hm, h3, -⟩ := scalar_eq' t.val
    omega
  · refine ⟨⟨leBytes 32 (8 * (r - m)), length_leBytes _ _⟩, ?_⟩
    change X25519.scalar (leBytes 32 (8 * (r - m))) + _ = _
    rw [scalar_leBytes (by omega) (by omega)]
    omega

/-- **C144.**  Both numbers occur for public keys: the key of the clamped scalar `8 m` is that of 64 secrets if `m` is at most `ℓ - 2^251`,
and of 32 secrets above. -/
theorem C144_public_keys (s : List U8) (hs : s.length = 32) :
    {t : Bytes 32 | Curve25519.scalarmult t.val nine = Curve25519.scalarmult s nine}.ncard =
      if X25519.scalar s / 8 + 2 ^ 251 ≤ X25519.order then 64 else 32 := by
  obtain ⟨m, hm, h1, h2⟩ := scalar_eq' s
  have e : Curve25519.scalarmult s nine = Curve25519.scalarmult (leBytes 32 (8 * m)) nine := by
    rw [C69_same_result _ _ nine hs (length_leBytes _ _) (by simp) (by decide +kernel), scalar_leBytes h1 h2, hm]
    exact .inl rfl
  rw [e, ncard_nine h1 h2, hm, Nat.mul_div_cancel_left _ (by decide)]

/-! ## Cases -/

example : X25519.scalar (leBytes 32 0) / 8 + 2 ^ 251 ≤ X25519.order := by decide +kernel
example : ¬ X25519.scalar (leBytes 32 (2 ^ 256 - 1)) / 8 + 2 ^ 251 ≤ X25519.order := by decide +kernel
example (s : List U8) (hs : s.length = 32) := C144_secrets s nine hs (by simp) (by decide +kernel)
example (s : List U8) (hs : s.length = 32) := C144_secrets s (leBytes 32 2) hs (length_leBytes _ _) (by decide +kernel)
example (G : Finset (List U8)) := C144_guess nine (by simp) (by decide +kernel) G
example := C144_p256 1 (by decide +kernel)
example := C144_p256 (2 ^ 255) (by decide +kernel)

end Hacspec.Props
