import Verif.Lemmas.HashStructure
import Verif.Props.Hmacs

/-! # C74–C76: structure of the hash functions -/

namespace Hacspec.Props

open SecretInt Spec Hacspec.Seq HashStructure

/-! ## C74 -/

/-- **C74, refuted** for `blake2b`: there is one function that computes the digest of `m ++ x` from the digest and the length
of `m` alone, for every `m` that fills its last block and every `x`. -/
theorem C74_blake2b_extension_refuted : ∃ ext : List U8 → Nat → List U8 → List U8, ∀ m x : List U8, m.length % 128 = 0 →
    (m ++ x).length < 2 ^ 63 →
    ∃ d, Hacspec.Blake2.blake2b m = .ok d ∧ Hacspec.Blake2.blake2b (m ++ x) = .ok (ext d m.length x) :=
  ⟨extendBlake, fun _ _ => blake2b_append⟩

/-- **C74, refuted** for `sha256::hash`: the same, without the padding that separates `m` and `x` in FIPS 180-4. -/
theorem C74_sha256_extension_refuted : ∃ ext : List U8 → Nat → List U8 → List U8, ∀ m x : List U8, m.length % 64 = 0 →
    (m ++ x).length < 2 ^ 61 →
    ∃ d, Sha2.hash m = .ok d ∧ Sha2.hash (m ++ x) = .ok (ext d m.length x) :=
  ⟨extendSha, fun _ _ => sha2_append⟩

/-- **C74.**  Collisions persist: two messages of the same number of full blocks with one digest keep a common digest under
every common extension. -/
theorem C74_blake2b_collision (m m' x : List U8) (hm : m.length % 128 = 0) (hl : m.length = m'.length)
    (hx : (m ++ x).length < 2 ^ 63) (h : Hacspec.Blake2.blake2b m = Hacspec.Blake2.blake2b m') :
    Hacspec.Blake2.blake2b (m ++ x) = Hacspec.Blake2.blake2b (m' ++ x) := by
  obtain ⟨d, h1, h2⟩ := blake2b_append hm hx
  obtain ⟨d', h3, h4⟩ := blake2b_append (m := m') (x := x) (by omega) (by rw [List.length_append] at hx ⊢; omega)
  rw [h1, h3] at h
  injection h with h
  rw [h2, h4, h, hl]

/-- **C74.**  The same for `sha256::hash`. -/
theorem C74_sha256_collision (m m' x : List U8) (hm : m.length % 64 = 0) (hl : m.length = m'.length)
    (hx : (m ++ x).length < 2 ^ 61) (h : Sha2.hash m = Sha2.hash m') :
    Sha2.hash (m ++ x) = Sha2.hash (m' ++ x) := by
  obtain ⟨d, h1, h2⟩ := sha2_append hm hx
  obtain ⟨d', h3, h4⟩ := sha2_append (m := m') (x := x) (by omega) (by rw [List.length_append] at hx ⊢; omega)
  rw [h1, h3] at h
  injection h with h
  rw [h2, h4, h, hl]

/-- A secret prefix of one block: the digest of a longer message follows from the digest of the prefix. -/
example : ∃ ext : List U8 → Nat → List U8 → List U8, ∀ k : List U8, k.length = 128 →
    ∃ d, Hacspec.Blake2.blake2b k = .ok d ∧ Hacspec.Blake2.blake2b (k ++ [1, 2, 3]) = .ok (ext d 128 [1, 2, 3]) := by
  obtain ⟨ext, h⟩ := C74_blake2b_extension_refuted
  refine ⟨ext, fun k hk => ?_⟩
  have := h k [1, 2, 3] (by omega) (by simp [hk])
  rwa [hk] at this

example := C74_sha256_collision (List.replicate 64 1) (List.replicate 64 1) [5] (by simp) rfl (by simp) rfl

/-! ## C75 -/

/-- **C75.**  `mix` permutes the work vectors, for all message words and all positions with `a ≠ b, d` and `c ≠ b, d`. -/
theorem C75_mix (a b c d : Nat) (x y : U64) (ha : a < 16) (hb : b < 16) (hc : c < 16) (hd : d < 16) (hab : a ≠ b)
    (had : a ≠ d) (hbc : b ≠ c) (hcd : c ≠ d) : Permutes 16 (fun v => Hacspec.Blake2.mix v a b c d x y) :=
  permutes_mix x y ha hb hc hd hab had hbc hcd

example := C75_mix 3 4 9 14 0x123456789abcdef0 0xffffffffffffffff (by decide) (by decide) (by decide) (by decide) (by decide)
  (by decide) (by decide) (by decide)

/-- With `a = b` it does not: the hypothesis is needed. -/
example : ¬ Permutes 16 (fun v : List U64 => Hacspec.Blake2.mix v 0 0 8 12 0 0) := by
  intro h
  obtain ⟨t, h1, h2⟩ := h.1 (List.replicate 16 0) (by simp)
  obtain ⟨s, h3, h4, h5⟩ := h.2 t h2
  have e0 := h5 (List.replicate 16 0) (by simp) h1
  have e1 := h5 (0x8000000000000000 :: List.replicate 15 0) (by simp) (by rw [← h1]; decide +kernel)
  rw [← e0] at e1
  exact absurd e1 (by decide)

/-- **C75.**  Every round of `compress` permutes the work vectors, for every message block. -/
theorem C75_round (m : List U64) (hm : m.length = 16) (i : Nat) (hi : i < 12) :
    Permutes 16 (Hacspec.Blake2.roundStep m i) := permutes_round hm hi

example := C75_round (List.replicate 16 7) (by simp) 11 (by decide)

/-- **C75.**  So do all the rounds of both variants together. -/
theorem C75_rounds (m : List U64) (hm : m.length = 16) (alg : Hacspec.Blake2.Variant) :
    Permutes 16 (loop alg.rounds (Hacspec.Blake2.roundStep m)) :=
  permutes_loop _ fun i hi => permutes_round hm (by cases alg <;> simp only [Hacspec.Blake2.Variant.rounds] at hi <;> omega)

example := C75_rounds (List.replicate 16 7) (by simp) .blake2b

/-- **C75.**  A thirteenth round panics: the schedule has twelve rows. -/
theorem C75_rows (m v : List U64) (i : Nat) (hi : 12 ≤ i) : Hacspec.Blake2.roundStep m i v = panic := by
  have hl : Hacspec.Blake2.sigma.length = 192 := by decide +kernel
  rw [Hacspec.Blake2.roundStep, Hacspec.Blake2.mixAt, idx_panic (by omega), bind_panic, bind_panic]

example := C75_rows [] [] 12 (by decide)

/-! ## C76 -/

theorem keyBlock_short {k : List U8} (h : k.length ≤ 64) :
    Hmac.keyBlock k = .ok (k ++ List.replicate (64 - k.length) 0) := by
  rw [Hmac.keyBlock, if_neg (by omega), updateStart_new (by omega)]; rfl

theorem hmac_congr {k k' : List U8} (h : Hmac.keyBlock k = Hmac.keyBlock k') (m : List U8) :
    Hmac.hmac k m = Hmac.hmac k' m := by
  rw [Hmac.hmac, Hmac.hmac, h]

/-- **C76.**  Zeros at the end of a key of at most a block do not matter, for any message. -/
theorem C76_zeros (k m : List U8) (z : Nat) (h : k.length + z ≤ 64) :
    Hmac.hmac (k ++ List.replicate z 0) m = Hmac.hmac k m := by
  apply hmac_congr
  rw [keyBlock_short (by simp; omega), keyBlock_short (by omega)]
  congr 1
  rw [List.append_assoc, List.length_append, List.length_replicate, List.replicate_append_replicate]
  congr 2; omega

example := C76_zeros [1, 2, 3] [4] 61 (by decide)

/-- **C76.**  A key longer than a block can be replaced by its digest, for any message. -/
theorem C76_long_key (k d m : List U8) (hk : 64 < k.length) (hd : Sha2.hash k = .ok d) (hn : k.length < 2 ^ 61) :
    Hmac.hmac d m = Hmac.hmac k m := by
  apply hmac_congr
  have hl : d.length = 32 := by
    have := usedHash_hash.length hn
    rw [usedHash_hash.hash k hn] at hd
    injection hd with hd
    rw [← hd, this]
  rw [keyBlock_short (by omega), Hmac.keyBlock, if_pos hk, hd, bind_ok, updateStart_new (by omega)]; rfl

example := C76_long_key (List.replicate 65 1) _ [4] (by decide) (usedHash_hash.hash _ (by decide)) (by decide)

/-- **C76.**  Otherwise keys are told apart: two keys of at most a block have the same key block only if one is the other
with zeros appended. -/
theorem C76_short_keys (k k' : List U8) (h : k.length ≤ k'.length) (h' : k'.length ≤ 64) :
    Hmac.keyBlock k = Hmac.keyBlock k' ↔ k' = k ++ List.replicate (k'.length - k.length) 0 := by
  rw [keyBlock_short (by omega), keyBlock_short h']
  constructor
  · intro e
    injection e with e
    have := congrArg (List.take k'.length) e
    rw [List.take_left' rfl, List.take_append, List.take_of_length_le h, List.take_replicate,
      Nat.min_eq_left (by omega)] at this
    exact this.symm
  · intro e
    congr 1
    conv => rhs; rw [e]
    rw [List.append_assoc, List.replicate_append_replicate]
    congr 2
    simp; omega

example : Hmac.keyBlock [1, 2] = Hmac.keyBlock [1, 2, 0, 0] := (C76_short_keys _ _ (by decide) (by decide)).mpr (by decide)

example : Hmac.keyBlock [1, 2] ≠ Hmac.keyBlock [1, 2, 0, 3] := fun h =>
  absurd ((C76_short_keys _ _ (by decide) (by decide)).mp h) (by decide)

/-- **C76.**  `hkdf::extract` without salt is `extract` with any salt of at most 64 zero bytes. -/
theorem C76_salt (ikm : List U8) (n : Nat) (h : n ≤ 64) :
    Hkdf.extract (List.replicate n 0) ikm = Hkdf.extract [] ikm := by
  have hz : ∀ n, n ≤ 64 → Hmac.hmac (List.replicate n 0) ikm = Hmac.hmac [] ikm := by
    intro n hn
    have := C76_zeros [] ikm n (by simpa using hn)
    rwa [List.nil_append] at this
  rw [Hkdf.extract, Hkdf.extract, Hkdf.saltOrZero, Hkdf.saltOrZero, if_neg (by simp : ¬ 0 < ([] : List U8).length), bind_ok,
    show (new 32 : List U8) = List.replicate 32 0 from rfl, hz 32 (by decide)]
  by_cases h0 : n = 0
  · subst h0
    rw [if_neg (by simp), bind_ok, hz 32 (by decide)]
  · rw [if_pos (by simp; omega), fromSeq_ok, bind_ok, hz n h]

example := C76_salt [1, 2] 64 (by decide)

end Hacspec.Props
