import Verif.Lemmas.Ideal.Switch
import Verif.Props.Ideals

/-! # C108: AES-GCM with a random permutation in place of AES

AES with a key is a permutation of the blocks, not just a function (C42).  The attacks are those of C106 and C107. -/

namespace Hacspec.Props

open Spec Hacspec.Ideal Finset

/-- **C108.**  AES with a key is one of these permutations: with it, the attacked functions are `encrypt_aes` and
`decrypt_aes`. -/
theorem C108_code (alg : Hacspec.Aes.Variant) (key : List U8) (hk : key.length = 4 * Hacspec.Aes.nk alg) :
    ∃ π : Equiv.Perm (Bytes 16),
      (∀ x, Hacspec.Aes.encryptBlock key x.1 (Hacspec.Aes.nk alg) (Hacspec.Aes.nr alg) alg = .ok (π x).1) ∧
      ∀ (iv : Bytes 12) (aad m c : List U8) (t : Bytes 16),
        aesGcm.enc π iv aad m = Hacspec.AesGcm.encrypt key iv.1 aad m alg ∧
        aesGcm.dec π iv aad c t = Hacspec.AesGcm.decrypt key iv.1 aad c t.1 alg :=
  ⟨⟨aesOf alg key hk, fun x => ⟨Aes.invCipher (Hacspec.Aes.nk alg) (Hacspec.Aes.nr alg) key x.1, Hacspec.Aes.length_invCipher x.1 hk⟩,
      fun x => Subtype.ext (Hacspec.Aes.invCipher_cipher hk x.2), fun x => Subtype.ext (Hacspec.Aes.cipher_invCipher hk x.2)⟩,
    fun x => C42_cipher alg key x.1 hk x.2, fun iv aad m c t => C106_gcm_code alg key hk iv aad m c t⟩

example := C108_code .aes128 (List.replicate 16 1) (by simp [Hacspec.Aes.nk])

open Classical in
/-- **C108.**  Whatever `D` is concluded from `q` questions on data of at most `L` blocks, for which at most `s = q L + 1` blocks
are enciphered: the proportion of permutations with which it is concluded is at most `1 / (1 - s (s - 1) / 2^129)` times the
proportion of functions. -/
theorem C108_switch (A : List Seen → Ask) (L q : Nat) (hA : Proper A L) (hL : L < 2 ^ 32) (D : List Seen → Prop) :
    (2 ^ 129 - (q * L + 1) * (q * L)) * (univ.filter fun π : Equiv.Perm (Bytes 16) => D (aesGcm.play A π q)).card *
        Fintype.card (Bytes 16 → Bytes 16) ≤
      2 ^ 129 * (univ.filter fun F : Bytes 16 → Bytes 16 => D (aesGcm.play A F q)).card * Fintype.card (Equiv.Perm (Bytes 16)) := by
  have hN : 2 ^ 129 = 2 * Fintype.card (Bytes 16) := by rw [card_bytes]; norm_num
  have hs : (q * L + 1) * (q * L) = (q * L + 1) * (q * L + 1 - 1) := by rw [Nat.add_sub_cancel]
  rw [hN, hs]
  by_cases h : q * L + 1 ≤ Fintype.card (Bytes 16)
  · refine card_switch' (fun F => playPts A F q) (fun F => D (aesGcm.play A F q)) (fun F F' hF => ⟨playPts_local hA hL hF, fun hD => ?_⟩)
      (fun F => card_playPts hA F q) h
    rw [play_local hA hL hF q (le_refl q)]
    exact hD
  · rw [Nat.sub_eq_zero_of_le, Nat.zero_mul, Nat.zero_mul]
    · exact Nat.zero_le _
    · rw [Nat.add_sub_cancel]
      have h1 : 1 < Fintype.card (Bytes 16) := by rw [card_bytes]; norm_num
      exact Nat.mul_le_mul (by omega) (by omega)

example := C108_switch prepend 3 2 prepend_proper (by norm_num)

open Classical in
/-- **C108.**  Forgeries of AES-GCM with a random permutation: at most `q (L + 1)` in `2^128 - s (s - 1) / 2` of all
permutations. -/
theorem C108_forgery (A : List Seen → Ask) (L q : Nat) (hA : Proper A L) (hL : L < 2 ^ 32) :
    (2 ^ 129 - (q * L + 1) * (q * L)) * (univ.filter fun π : Equiv.Perm (Bytes 16) => aesGcm.Forges A q π).card ≤
      2 * q * (L + 1) * Fintype.card (Equiv.Perm (Bytes 16)) := by
  obtain ⟨D, hD⟩ : ∃ D : List Seen → Prop, ∀ h, D h ↔ ∃ iv aad c t p, Seen.dec iv aad c t (some p) ∈ h := ⟨_, fun _ => Iff.rfl⟩
  have h := C108_switch A L q hA hL D
  have h2 := C106_gcm A L q hA hL
  have hf : 0 < Fintype.card (Bytes 16 → Bytes 16) := Fintype.card_pos_iff.mpr ⟨id⟩
  have e1 : (univ.filter fun π : Equiv.Perm (Bytes 16) => D (aesGcm.play A π q)) =
      univ.filter fun π : Equiv.Perm (Bytes 16) => aesGcm.Forges A q π := Finset.filter_congr fun π _ => (hD _).trans (forges_iff aesGcm).symm
  have e2 : (univ.filter fun F : Bytes 16 → Bytes 16 => D (aesGcm.play A F q)) =
      univ.filter (aesGcm.Forges A q) := Finset.filter_congr fun F _ => (hD _).trans (forges_iff aesGcm).symm
  rw [e1, e2] at h
  refine Nat.le_of_mul_le_mul_right (h.trans ?_) hf
  calc _ = 2 * (2 ^ 128 * (univ.filter (aesGcm.Forges A q)).card) *
        Fintype.card (Equiv.Perm (Bytes 16)) := by ring
    _ ≤ 2 * (q * (L + 1) * Fintype.card (Bytes 16 → Bytes 16)) * Fintype.card (Equiv.Perm (Bytes 16)) :=
        Nat.mul_le_mul_right _ (Nat.mul_le_mul_left _ h2)
    _ = _ := by ring

example := C108_forgery prepend 3 2 prepend_proper (by norm_num)

open Classical in
/-- **C108.**  As long as at most `2^64` blocks are enciphered, these are at most `q (L + 1)` in `2^127`. -/
theorem C108_forgery_short (A : List Seen → Ask) (L q : Nat) (hA : Proper A L) (hL : L < 2 ^ 32) (hq : q * L < 2 ^ 64) :
    2 ^ 127 * (univ.filter fun π : Equiv.Perm (Bytes 16) => aesGcm.Forges A q π).card ≤
      q * (L + 1) * Fintype.card (Equiv.Perm (Bytes 16)) := by
  have h := C108_forgery A L q hA hL
  have h1 : (q * L + 1) * (q * L) ≤ 2 ^ 64 * 2 ^ 64 := Nat.mul_le_mul (by omega) (by omega)
  have h2 : 2 * 2 ^ 127 ≤ 2 ^ 129 - (q * L + 1) * (q * L) := by omega
  have h3 := (Nat.mul_le_mul_right _ h2).trans h
  rw [Nat.mul_assoc, Nat.mul_assoc 2, Nat.mul_assoc 2] at h3
  exact Nat.le_of_mul_le_mul_left h3 (by omega)

example := C108_forgery_short prepend 3 2 prepend_proper (by norm_num) (by norm_num)

theorem hiding_arith {a E p p' p'' f f' f'' M P B B' : Nat} (h1 : a * p * M ≤ 2 ^ 129 * f * P) (h2 : a * p'' * M ≤ 2 ^ 129 * f'' * P)
    (h3 : 2 ^ 128 * f ≤ 2 ^ 128 * f' + 2 * B * M) (e1 : p' + p'' = P) (e2 : f' + f'' = M) (ha : a + E = 2 ^ 129) (hM : 0 < M)
    (hB : B' = 4 * B) : a * p ≤ a * p' + (E + B') * P := by
  subst hB
  refine Nat.le_of_mul_le_mul_right ?_ hM
  have h4 := Nat.mul_le_mul_right (2 * P) h3
  have h5 : a * M * P + E * M * P = 2 ^ 129 * M * P := by rw [← ha]; ring
  have h6 : 2 ^ 129 * M * P = 2 ^ 129 * f' * P + 2 ^ 129 * f'' * P := by rw [← e2]; ring
  have h7 : a * M * P = a * p' * M + a * p'' * M := by rw [← e1]; ring
  have h8 : 2 ^ 128 * f * (2 * P) = 2 ^ 129 * f * P := by ring
  have h9 : (2 ^ 128 * f' + 2 * B * M) * (2 * P) = 2 ^ 129 * f' * P + 4 * B * M * P := by ring
  have h10 : (a * p' + (E + 4 * B) * P) * M = a * p' * M + E * M * P + 4 * B * M * P := by ring
  rw [h8, h9] at h4
  rw [h10]
  omega

open Classical in
/-- **C108.**  The messages are hidden by AES-GCM with a random permutation: up to `s (s - 1) + 4 q (L + 1)` in
`2^129 - s (s - 1)` of the permutations. -/
theorem C108_hiding (A A' : List Seen → Ask) (L q : Nat) (hA : Proper A L) (hA' : Proper A' L) (hL : L < 2 ^ 32)
    (hs : ∀ h, (A h).Similar (A' h)) (D : List Seen → Prop) :
    (2 ^ 129 - (q * L + 1) * (q * L)) * (univ.filter fun π : Equiv.Perm (Bytes 16) => D (aesGcm.play A π q)).card ≤
      (2 ^ 129 - (q * L + 1) * (q * L)) * (univ.filter fun π : Equiv.Perm (Bytes 16) => D (aesGcm.play A' π q)).card +
      ((q * L + 1) * (q * L) + 4 * q * (L + 1)) * Fintype.card (Equiv.Perm (Bytes 16)) := by
  have h1 := C108_switch A L q hA hL D
  have h2 := C108_switch A' L q hA' hL fun h => ¬ D h
  have h3 := C107_gcm_decryption A A' L q hA hA' hL hs D
  have hf : 0 < Fintype.card (Bytes 16 → Bytes 16) := Fintype.card_pos_iff.mpr ⟨id⟩
  by_cases hlt : (q * L + 1) * (q * L) ≤ 2 ^ 129
  · rw [Nat.mul_assoc 2] at h3
    refine hiding_arith (B := q * (L + 1)) h1 h2 h3 ?_ ?_ (by omega) hf (by rw [Nat.mul_assoc])
    · rw [Finset.card_filter_add_card_filter_not, Finset.card_univ]
    · rw [Finset.card_filter_add_card_filter_not, Finset.card_univ]
  · rw [Nat.sub_eq_zero_of_le (by omega), Nat.zero_mul, Nat.zero_mul, Nat.zero_add]
    exact Nat.zero_le _

example := C108_hiding (ask2 [1, 2] [3]) (ask2 [6, 7] [8]) 3 2 (ask2_proper _ _ _ (by decide) (by decide))
  (ask2_proper _ _ _ (by decide) (by decide)) (by norm_num) (ask2_similar rfl rfl)

end Hacspec.Props
