import Verif.Lemmas.GcmManyKeys
import Verif.Props.KeyCommit

/-! # C87: weak keys of GHASH and Poly1305, and ciphertexts valid under many keys -/

namespace Hacspec.Props

open SecretInt Spec Hacspec.Seq Universal
open Hacspec.Aes (Variant)

/-! ## The hash key 0 -/

theorem ghash_eq_iff {k m m' : List U8} : Gcm.ghash k m = Gcm.ghash k m' ↔ el (Gcm.ghash k m) = el (Gcm.ghash k m') :=
  ⟨fun h => by rw [h], fun h => el_inj (by rw [Gf128.length_ghash, Gf128.length_ghash]) (by rw [Gf128.length_ghash]) h⟩

theorem ghash_zero_key (m : List U8) : Gcm.ghash (List.replicate 16 0) m = List.replicate 16 0 := by
  refine el_inj (by rw [Gf128.length_ghash, List.length_replicate]) (by rw [Gf128.length_ghash]) ?_
  rw [el_ghash (by rw [List.length_replicate]), eval_hpoly, el_zero]
  refine Finset.sum_eq_zero fun i hi => ?_
  rw [Finset.mem_range] at hi
  rw [zero_pow (by omega), mul_zero]

/-- **C87.**  The key 0 of GHASH gives every text the hash 0. -/
theorem C87_ghash_zero (m : List U8) : Gf128.gmac m (List.replicate 16 0) = .ok (List.replicate 16 0) := by
  rw [C44_gmac _ _ (by rw [List.length_replicate]), ghash_zero_key]

/-- **C87.**  Under every other key, different texts of one block have different hashes. -/
theorem C87_ghash_other (k x y : List U8) (hk : k.length = 16) (hx : x.length = 16) (hy : y.length = 16)
    (h0 : k ≠ List.replicate 16 0) : Gf128.gmac x k = Gf128.gmac y k ↔ x = y := by
  rw [C44_gmac _ _ hk, C44_gmac _ _ hk]
  refine ⟨fun h => ?_, fun h => by rw [h]⟩
  have h := ghash_eq_iff.mp (Except.ok.inj h)
  rw [ghash_block hk hx, ghash_block hk hy] at h
  exact el_inj (by omega) (by omega) (mul_right_cancel₀ (el_ne_zero hk h0) h)

/-! ## Keys of small order -/

/-- The `t`-th power by multiplications of the model. -/
def fpow (x : U128) : Nat → M U128
  | 0 => .ok (1#128 <<< 127)
  | t + 1 => do Gf128.fmul (← fpow x t) x

theorem fpow_ok (x : U128) (t : Nat) :
    ∃ y, fpow x t = .ok y ∧ Gf128.φ (Gf128.toPoly y) = Gf128.φ (Gf128.toPoly x) ^ t := by
  induction t with
  | zero => exact ⟨_, rfl, by rw [Gf128.toPoly_one, map_one, pow_zero]⟩
  | succ t ih =>
    obtain ⟨y, h1, h2⟩ := ih
    refine ⟨Gf128.mulF y x, ?_, by rw [Gf128.φ_mulF, h2, pow_succ]⟩
    rw [fpow, h1, bind_ok, Gf128.fmul_ok]

theorem fpow_one_iff (x : U128) (t : Nat) : fpow x t = .ok (1#128 <<< 127) ↔ Gf128.φ (Gf128.toPoly x) ^ t = 1 := by
  obtain ⟨y, h1, h2⟩ := fpow_ok x t
  rw [h1, ← h2]
  constructor
  · intro h
    rw [Except.ok.inj h, Gf128.toPoly_one, map_one]
  · intro h
    refine congrArg Except.ok (Gf128.φ_inj ?_)
    rw [h, Gf128.toPoly_one, map_one]

/-- **C87.**  Exchanging two different blocks of a text at distance `t` keeps the hash exactly if the key is 0 or its `t`-th
power is 1. -/
theorem C87_ghash_exchange (k a x b y c : List U8) (t : Nat) (h : U128) (hk : k.length = 16) (ha : a.length % 16 = 0)
    (hx : x.length = 16) (hy : y.length = 16) (hb : b.length + 16 = 16 * t) (hne : x ≠ y) (hh : Gf128.encode k = .ok h) :
    Gf128.gmac (a ++ x ++ b ++ y ++ c) k = Gf128.gmac (a ++ y ++ b ++ x ++ c) k ↔
      h = 0 ∨ fpow h t = .ok (1#128 <<< 127) := by
  rw [Gf128.encode_ok hk] at hh
  have hh := Except.ok.inj hh
  have eh : Gf128.φ (Gf128.toPoly h) = el k := by rw [← hh, Gf128.toPoly_wordOfBe hk, el]
  have hz : h = 0 ↔ el k = 0 := by
    rw [← eh]
    constructor
    · rintro rfl
      rw [show (0 : U128) = 0#128 from rfl, Gf128.toPoly_zero, map_zero]
    · intro h0
      apply Gf128.φ_inj
      rw [h0, show (0 : U128) = 0#128 from rfl, Gf128.toPoly_zero, map_zero]
  rw [fpow_one_iff, eh, hz, C44_gmac _ _ hk, C44_gmac _ _ hk]
  have e : ∀ x y : List U8, x.length = 16 → y.length = 16 → el (Gcm.ghash k (a ++ x ++ b ++ y ++ c)) =
      el (Gcm.ghash k a) * el k ^ (t + 1 + nb c) + el x * el k ^ (t + 1 + nb c) + el (Gcm.ghash k b) * el k ^ (1 + nb c) +
        el y * el k ^ (1 + nb c) + el (Gcm.ghash k c) := by
    intro x y hx hy
    obtain ⟨s, rfl⟩ : ∃ s, t = s + 1 := ⟨t - 1, by omega⟩
    have n1 : nb (y ++ c) = 1 + nb c := by rw [nb, nb, List.length_append]; omega
    have n2 : nb (b ++ (y ++ c)) = s + 1 + nb c := by rw [nb, nb, List.length_append, List.length_append]; omega
    have n3 : nb (x ++ (b ++ (y ++ c))) = s + 1 + 1 + nb c := by
      rw [nb, nb, List.length_append, List.length_append, List.length_append]; omega
    rw [List.append_assoc, List.append_assoc, List.append_assoc, ghash_append hk ha, ghash_append hk (by omega),
      ghash_append hk (by omega), ghash_append hk (by omega), ghash_block hk hx, ghash_block hk hy, n1, n2, n3]
    ring
  have hfac : el (Gcm.ghash k (a ++ x ++ b ++ y ++ c)) - el (Gcm.ghash k (a ++ y ++ b ++ x ++ c)) =
      (el x - el y) * el k ^ (1 + nb c) * (el k ^ t - 1) := by
    rw [e x y hx hy, e y x hy hx]
    ring
  have hxy : el x - el y ≠ 0 := fun h => hne (el_inj (by omega) (by omega) (sub_eq_zero.mp h))
  constructor
  · intro h
    have h := ghash_eq_iff.mp (Except.ok.inj h)
    rw [← sub_eq_zero, hfac] at h
    rcases mul_eq_zero.mp h with h | h
    · rcases mul_eq_zero.mp h with h | h
      · exact absurd h hxy
      · exact .inl (pow_eq_zero_iff (by omega) |>.mp h)
    · exact .inr (sub_eq_zero.mp h)
  · intro h
    refine congrArg Except.ok (ghash_eq_iff.mpr ?_)
    rw [← sub_eq_zero, hfac]
    rcases h with h | h
    · rw [h, zero_pow (by omega)]; ring
    · rw [h]; ring

/-- A key of order 3. -/
def key3 : List U8 := [144, 208, 77, 37, 249, 53, 86, 230, 159, 88, 206, 47, 141, 3, 90, 148]

/-- Under it, the first and the fourth block may be exchanged. -/
example : Gf128.gmac (List.replicate 16 1 ++ List.replicate 32 2 ++ List.replicate 16 3 ++ [4]) key3 =
    Gf128.gmac (List.replicate 16 3 ++ List.replicate 32 2 ++ List.replicate 16 1 ++ [4]) key3 :=
  (C87_ghash_exchange key3 [] (List.replicate 16 1) (List.replicate 32 2) (List.replicate 16 3) [4] 3 (wordOfBe 128 key3)
    rfl rfl rfl rfl rfl (by decide) (Gf128.encode_ok rfl)).mpr (.inr (by decide +kernel))

/-! ## The bound of C72 is attained -/

/-- **C87.**  For any keys, 0 among them, there is a text of as many blocks as keys, different from the zero text, that has
the hash of the zero text under all of them: the number of keys in C72 cannot be improved. -/
theorem C87_bound_attained (ks : List (List U8)) (hk : ∀ k ∈ ks, k.length = 16) (h0 : List.replicate 16 0 ∈ ks) :
    ∃ m : List U8, m.length = 16 * ks.length ∧ m ≠ List.replicate (16 * ks.length) 0 ∧
      ∀ k ∈ ks, Gf128.gmac m k = Gf128.gmac (List.replicate (16 * ks.length) 0) k := by
  obtain ⟨m, h1, h2, h3⟩ := zeros_under hk h0
  refine ⟨m, h1, h2, fun k hk' => ?_⟩
  rw [C44_gmac _ _ (hk k hk'), C44_gmac _ _ (hk k hk')]
  refine congrArg Except.ok (ghash_eq_iff.mpr ?_)
  rw [h3 k hk', el_ghash (hk k hk'), eval_hpoly]
  refine (Finset.sum_eq_zero fun i hi => ?_).symm
  rw [Finset.mem_range, nb, List.length_replicate] at hi
  rw [block, List.drop_replicate, List.take_replicate, Nat.min_eq_left (by omega), el_zero, zero_mul]

example := C87_bound_attained [List.replicate 16 0, List.replicate 16 1, key3] (by decide) (by decide)

/-! ## Many keys -/

/-- A key of AES-GCM with a nonce. -/
structure GcmKey where
  alg : Variant
  key : List U8
  iv : List U8

/-- The hash key. -/
def GcmKey.sub (k : GcmKey) : M (List U8) :=
  Hacspec.Aes.encryptBlock k.key (List.replicate 16 0) (Hacspec.Aes.nk k.alg) (Hacspec.Aes.nr k.alg) k.alg

/-- **C87.**  For any list of keys and nonces whose hash keys are different and not 0, any associated data and any tag,
there is exactly one ciphertext with one block per key that is accepted with this tag under all the keys. -/
theorem C87_gcm_many_keys (ks : List GcmKey) (aad t : List U8)
    (hk : ∀ k ∈ ks, k.key.length = 4 * Hacspec.Aes.nk k.alg ∧ k.iv.length = 12 ∧ k.sub ≠ .ok (List.replicate 16 0))
    (hnd : (ks.map GcmKey.sub).Nodup) (hl : 16 * ks.length < 2 ^ 63) (ht : t.length = 16) :
    ∃! c : List U8, c.length = 16 * ks.length ∧
      ∀ k ∈ ks, ∃ p, Hacspec.AesGcm.decryptKey k.key k.iv aad c t k.alg = .ok (some p) := by
  let k₀ : GcmKey := ⟨.aes128, List.replicate 16 0, List.replicate 12 0⟩
  let at' : Nat → GcmKey := fun i => ks.getD i k₀
  have hat : ∀ i, i < ks.length → at' i ∈ ks := by
    intro i hi
    simp only [at', List.getD_eq_getElem?_getD, List.getElem?_eq_getElem hi]
    exact List.getElem_mem hi
  let H : GcmKey → List U8 := fun k => Spec.Aes.cipher (Hacspec.Aes.nk k.alg) (Hacspec.Aes.nr k.alg) k.key (List.replicate 16 0)
  have hH : ∀ k ∈ ks, k.sub = .ok (H k) := fun k h => C42_cipher k.alg k.key _ (hk k h).1 (by rw [List.length_replicate])
  have hp : (aad ++ pad16 aad).length % 16 = 0 := by
    simp only [List.length_append, pad16, List.length_replicate]; omega
  obtain ⟨c, hc, h⟩ := many_keys (n := ks.length) (hs := fun i => H (at' i))
    (es := fun i => Spec.Aes.ctrBlock (Hacspec.Aes.nk (at' i).alg) (Hacspec.Aes.nr (at' i).alg) (at' i).key (at' i).iv 1)
    (fun i hi => Hacspec.Aes.length_cipher _ (hk _ (hat i hi)).1)
    (fun i hi e => (hk _ (hat i hi)).2.2 (by rw [hH _ (hat i hi), e]))
    (fun i j hi hj e => by
      have e2 : (at' i).sub = (at' j).sub := by rw [hH _ (hat i hi), hH _ (hat j hj), e]
      have hi' : i < (ks.map GcmKey.sub).length := by rw [List.length_map]; exact hi
      have hj' : j < (ks.map GcmKey.sub).length := by rw [List.length_map]; exact hj
      refine (List.Nodup.getElem_inj_iff hnd (hi := hi') (hj := hj')).mp ?_
      simp only [at', List.getD_eq_getElem?_getD, List.getElem?_eq_getElem hi, List.getElem?_eq_getElem hj,
        Option.getD_some] at e2
      rw [List.getElem_map, List.getElem_map, e2])
    (fun i hi => Hacspec.Aes.length_ctrBlock _ 1 (hk _ (hat i hi)).1) hp
    (l := bytesBe64 (BitVec.ofNat 64 (8 * aad.length)) ++ bytesBe64 (BitVec.ofNat 64 (8 * (16 * ks.length)))) rfl ht
  have key : ∀ c' : List U8, c'.length = 16 * ks.length → ((∀ k ∈ ks, ∃ p, Hacspec.AesGcm.decryptKey k.key k.iv aad c' t k.alg =
      .ok (some p)) ↔ c' = c) := by
    intro c' hc'
    rw [← h c' hc']
    have md : Gcm.macData aad c' = (aad ++ pad16 aad) ++ (c' ++
        (bytesBe64 (BitVec.ofNat 64 (8 * aad.length)) ++ bytesBe64 (BitVec.ofNat 64 (8 * (16 * ks.length))))) := by
      rw [Gcm.macData, show pad16 c' = [] by rw [pad16, show (16 - c'.length % 16) % 16 = 0 by omega]; rfl, hc']
      simp only [List.append_assoc, List.nil_append]
    have one : ∀ k ∈ ks, ((∃ p, Hacspec.AesGcm.decryptKey k.key k.iv aad c' t k.alg = .ok (some p)) ↔
        t = Gcm.tag (Hacspec.Aes.nk k.alg) (Hacspec.Aes.nr k.alg) k.key k.iv aad c') := by
      intro k hk'
      rw [C45_decrypt k.alg k.key k.iv aad c' t (hk k hk').1 (hk k hk').2.1 (by omega) ht]
      split
      · next h => exact ⟨fun _ => h, fun _ => ⟨_, rfl⟩⟩
      · next h => exact ⟨fun ⟨p, hp⟩ => (by injection hp with hp; cases hp), fun e => absurd e h⟩
    constructor
    · intro ha i hi
      have := (one _ (hat i hi)).mp (ha _ (hat i hi))
      rw [Gcm.tag, md] at this
      exact this.symm
    · intro ha k hk'
      refine (one k hk').mpr ?_
      obtain ⟨i, hi, rfl⟩ := List.mem_iff_getElem.mp hk'
      have := ha i hi
      simp only [at', List.getD_eq_getElem?_getD, List.getElem?_eq_getElem hi, Option.getD_some] at this
      rw [Gcm.tag, md]
      exact this.symm
  exact ⟨c, ⟨hc, (key c hc).mpr rfl⟩, fun c' h' => (key c' h'.1).mp h'.2⟩

/-- Three keys of AES-128. -/
def threeKeys : List GcmKey := [⟨.aes128, List.replicate 16 0, List.replicate 12 7⟩, ⟨.aes128, List.replicate 16 1, List.replicate 12 7⟩,
  ⟨.aes128, List.replicate 16 2, List.replicate 12 9⟩]

theorem threeKeys_sub : (threeKeys.map GcmKey.sub).Nodup ∧ ∀ k ∈ threeKeys, k.sub ≠ .ok (List.replicate 16 0) := by
  decide +kernel

example := C87_gcm_many_keys threeKeys [1, 2, 3] (List.replicate 16 5)
  (fun k h => ⟨(by decide : ∀ k ∈ threeKeys, k.key.length = 4 * Hacspec.Aes.nk k.alg) k h,
    (by decide : ∀ k ∈ threeKeys, k.iv.length = 12) k h, threeKeys_sub.2 k h⟩) threeKeys_sub.1 (by decide) (by decide)

/-! ## Poly1305 -/

theorem acc_zero (m : List U8) : Poly1305.acc 0 m = 0 := by
  rw [Poly1305.acc]
  cases (m.length + 15) / 16 with
  | zero => rfl
  | succ n => rw [List.range_succ, List.foldl_append, List.foldl_cons, List.foldl_nil, Nat.mul_zero, Nat.zero_mod]

/-- **C87.**  If the clamped part of the key is 0, the tag of every message is the second half of the key. -/
theorem C87_poly1305_zero (k m : List U8) (hk : k.length = 32) (h0 : Poly1305.clampR k = 0) :
    Hacspec.Poly1305.poly m k = .ok (k.drop 16) := by
  rw [C38_poly _ _ hk, h0, acc_zero, Nat.zero_add, Poly1305.keyS, List.take_of_length_le (by rw [List.length_drop]; omega)]
  have hl : (k.drop 16).length = 16 := by rw [List.length_drop]; omega
  have := leVal_lt (k.drop 16)
  rw [hl] at this
  have hp : 256 ^ 16 < Poly1305.p := by decide +kernel
  rw [Nat.mod_eq_of_lt (by omega)]
  refine congrArg Except.ok (Universal.leVal_inj (by rw [length_leBytes, hl]) ?_)
  rw [leVal_leBytes, Nat.mod_eq_of_lt this]

/-- **C87.**  Otherwise already the messages `00` and `01` have different tags. -/
theorem C87_poly1305_other (k : List U8) (hk : k.length = 32) :
    Hacspec.Poly1305.poly [0] k = Hacspec.Poly1305.poly [1] k ↔ Poly1305.clampR k = 0 := by
  refine ⟨fun h => ?_, fun h => by rw [C87_poly1305_zero k _ hk h, C87_poly1305_zero k _ hk h]⟩
  rw [C38_poly _ _ hk, C38_poly _ _ hk] at h
  have h := congrArg leVal (Except.ok.inj h)
  rw [leVal_leBytes, leVal_leBytes] at h
  have hr : Poly1305.clampR k ≤ 0x0ffffffc0ffffffc0ffffffc0fffffff := Nat.and_le_right
  have a0 : Poly1305.acc (Poly1305.clampR k) [0] = 256 * Poly1305.clampR k % Poly1305.p := by
    show (0 + leVal [0, 1]) * Poly1305.clampR k % Poly1305.p = _
    rw [show 0 + leVal [0, 1] = 256 by decide]
  have a1 : Poly1305.acc (Poly1305.clampR k) [1] = 257 * Poly1305.clampR k % Poly1305.p := by
    show (0 + leVal [1, 1]) * Poly1305.clampR k % Poly1305.p = _
    rw [show 0 + leVal [1, 1] = 257 by decide]
  rw [a0, a1, Nat.mod_add_mod, Nat.mod_add_mod,
    show 257 * Poly1305.clampR k + Poly1305.keyS k = 256 * Poly1305.clampR k + Poly1305.keyS k + Poly1305.clampR k by omega,
    ← Nat.mod_add_mod (256 * Poly1305.clampR k + Poly1305.keyS k)] at h
  have hx := Nat.mod_lt (256 * Poly1305.clampR k + Poly1305.keyS k) (show 0 < Poly1305.p by decide +kernel)
  have hp : Poly1305.p = 1361129467683753853853498429727072845819 := by decide +kernel
  generalize (256 * Poly1305.clampR k + Poly1305.keyS k) % Poly1305.p = x at h hx
  generalize Poly1305.clampR k = r at h hr ⊢
  clear a0 a1
  rw [hp] at h hx
  rcases Nat.lt_or_ge (x + r) 1361129467683753853853498429727072845819 with hlt | hge
  · rw [Nat.mod_eq_of_lt hlt] at h
    omega
  · rw [Nat.mod_eq_sub_mod hge, Nat.mod_eq_of_lt (by omega)] at h
    omega

/-- A key with the clamped part 0 that is not 0, and one with the clamped part 4. -/
example : Hacspec.Poly1305.poly [1, 2, 3] ([0, 0, 0, 0xf0, 3] ++ List.replicate 11 0 ++ List.replicate 16 7) =
    .ok (List.replicate 16 7) := C87_poly1305_zero _ _ rfl (by decide +kernel)
example : Hacspec.Poly1305.poly [0] (4 :: List.replicate 31 0) ≠ Hacspec.Poly1305.poly [1] (4 :: List.replicate 31 0) :=
  fun h => absurd ((C87_poly1305_other _ rfl).mp h) (by decide +kernel)

end Hacspec.Props
