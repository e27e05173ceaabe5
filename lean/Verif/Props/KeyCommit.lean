import Verif.Lemmas.GcmKeys
import Verif.Props.Universals

/-! # C81: the AEADs do not commit to the key -/

namespace Hacspec.Props

open SecretInt Spec Hacspec.Seq Universal
open Hacspec.Aes (Variant)

theorem macData_block (aad c b : List U8) (hc : c.length % 16 = 0) (hb : b.length = 16) :
    Gcm.macData aad (c ++ b) = (aad ++ pad16 aad ++ c) ++ b ++
      (bytesBe64 (BitVec.ofNat 64 (8 * aad.length)) ++ bytesBe64 (BitVec.ofNat 64 (8 * (c.length + 16)))) := by
  rw [Gcm.macData, show pad16 (c ++ b) = [] by
      rw [pad16, List.length_append, show (16 - (c.length + b.length) % 16) % 16 = 0 by omega]; rfl,
    List.length_append, hb]
  simp only [List.append_assoc, List.nil_append, List.append_nil]

theorem two_tags (alg alg' : Variant) (key key' iv iv' aad c : List U8) (hk : key.length = 4 * Hacspec.Aes.nk alg)
    (hk' : key'.length = 4 * Hacspec.Aes.nk alg') (hc : c.length % 16 = 0)
    (hH : Spec.Aes.cipher (Hacspec.Aes.nk alg) (Hacspec.Aes.nr alg) key (List.replicate 16 0) ≠
      Spec.Aes.cipher (Hacspec.Aes.nk alg') (Hacspec.Aes.nr alg') key' (List.replicate 16 0)) :
    ∃ b : List U8, b.length = 16 ∧ ∀ b' : List U8, b'.length = 16 →
      (Gcm.tag (Hacspec.Aes.nk alg) (Hacspec.Aes.nr alg) key iv aad (c ++ b') =
        Gcm.tag (Hacspec.Aes.nk alg') (Hacspec.Aes.nr alg') key' iv' aad (c ++ b') ↔ b' = b) := by
  have hp : (aad ++ pad16 aad ++ c).length % 16 = 0 := by
    simp only [List.length_append, pad16, List.length_replicate]; omega
  obtain ⟨b, hb, h⟩ := two_keys (Hacspec.Aes.length_cipher _ hk) (Hacspec.Aes.length_cipher _ hk') hp hp
    (l := bytesBe64 (BitVec.ofNat 64 (8 * aad.length)) ++ bytesBe64 (BitVec.ofNat 64 (8 * (c.length + 16)))) rfl
    (Hacspec.Aes.length_ctrBlock iv 1 hk) (Hacspec.Aes.length_ctrBlock iv' 1 hk') hH
  refine ⟨b, hb, fun b' hb' => ?_⟩
  rw [Gcm.tag, Gcm.tag, macData_block aad c b' hc hb']
  exact h b' hb'

/-- **C81, refuted** for AES-GCM.  For any two keys (of either size) that encrypt the zero block differently, any nonces, any
associated data and any ciphertext of full blocks, exactly one further block makes a ciphertext that has a common tag under
the two keys; with this tag both decryptions succeed. -/
theorem C81_gcm_refuted (alg alg' : Variant) (key key' iv iv' aad c : List U8) (hk : key.length = 4 * Hacspec.Aes.nk alg)
    (hk' : key'.length = 4 * Hacspec.Aes.nk alg') (hi : iv.length = 12) (hi' : iv'.length = 12) (hc : c.length % 16 = 0)
    (hl : c.length + 16 < 2 ^ 63)
    (hH : Hacspec.Aes.encryptBlock key (List.replicate 16 0) (Hacspec.Aes.nk alg) (Hacspec.Aes.nr alg) alg ≠
      Hacspec.Aes.encryptBlock key' (List.replicate 16 0) (Hacspec.Aes.nk alg') (Hacspec.Aes.nr alg') alg') :
    ∃! b : List U8, b.length = 16 ∧ ∃ t p p', t.length = 16 ∧
      Hacspec.AesGcm.decryptKey key iv aad (c ++ b) t alg = .ok (some p) ∧
      Hacspec.AesGcm.decryptKey key' iv' aad (c ++ b) t alg' = .ok (some p') := by
  rw [C42_cipher alg key _ hk (by simp), C42_cipher alg' key' _ hk' (by simp)] at hH
  obtain ⟨b, hb, h⟩ := two_tags alg alg' key key' iv iv' aad c hk hk' hc (fun e => hH (by rw [e]))
  have hcb : ∀ b : List U8, b.length = 16 → (c ++ b).length < 2 ^ 63 := by
    intro b hb; rw [List.length_append, hb]; exact hl
  have ht : ∀ c', (Gcm.tag (Hacspec.Aes.nk alg) (Hacspec.Aes.nr alg) key iv aad c').length = 16 := by
    intro c'
    rw [Gcm.tag, Spec.xor, List.length_zipWith, Gf128.length_ghash, Hacspec.Aes.length_ctrBlock _ _ hk]; rfl
  refine ⟨b, ⟨hb, _, Spec.Aes.ctr (Hacspec.Aes.nk alg) (Hacspec.Aes.nr alg) key iv 2 (c ++ b),
    Spec.Aes.ctr (Hacspec.Aes.nk alg') (Hacspec.Aes.nr alg') key' iv' 2 (c ++ b), ht (c ++ b), ?_, ?_⟩, ?_⟩
  · rw [C45_decrypt alg key iv aad _ _ hk hi (hcb b hb) (ht _), if_pos rfl]
  · rw [C45_decrypt alg' key' iv' aad _ _ hk' hi' (hcb b hb) (ht _), if_pos ((h b hb).mpr rfl)]
  · rintro b' ⟨hb', t, p, p', ht', h1, h2⟩
    rw [C45_decrypt alg key iv aad _ _ hk hi (hcb b' hb') ht'] at h1
    rw [C45_decrypt alg' key' iv' aad _ _ hk' hi' (hcb b' hb') ht'] at h2
    refine (h b' hb').mp ?_
    by_cases e1 : t = Gcm.tag (Hacspec.Aes.nk alg) (Hacspec.Aes.nr alg) key iv aad (c ++ b')
    · by_cases e2 : t = Gcm.tag (Hacspec.Aes.nk alg') (Hacspec.Aes.nr alg') key' iv' aad (c ++ b')
      · rw [← e1, ← e2]
      · rw [if_neg e2] at h2; injection h2 with h2; cases h2
    · rw [if_neg e1] at h1; injection h1 with h1; cases h1

/-- The hypothesis on the keys, for the zero key and another one. -/
theorem two_subkeys :
    Hacspec.Aes.encryptBlock (List.replicate 16 0) (List.replicate 16 0) 4 10 .aes128 ≠
      Hacspec.Aes.encryptBlock (List.replicate 16 1) (List.replicate 16 0) 4 10 .aes128 := by decide +kernel

/-- A ciphertext of two blocks, the first one zero. -/
example := C81_gcm_refuted .aes128 .aes128 (List.replicate 16 0) (List.replicate 16 1) (List.replicate 12 7) (List.replicate 12 7)
  [1, 2, 3] (List.replicate 16 0) (by simp [Hacspec.Aes.nk]) (by simp [Hacspec.Aes.nk]) (by simp) (by simp) (by simp) (by simp)
  two_subkeys

/-- **C81, refuted** for ChaCha20-Poly1305: a ciphertext of one block that is accepted under two keys. -/
theorem C81_chacha_refuted : ∃ key key' iv c t p p' : List U8, key ≠ key' ∧ key.length = 32 ∧ key'.length = 32 ∧
    iv.length = 12 ∧ c.length = 16 ∧ t.length = 16 ∧
    Hacspec.ChaChaPoly.decrypt key iv [] c t = .ok (some p) ∧ Hacspec.ChaChaPoly.decrypt key' iv [] c t = .ok (some p') := by
  refine ⟨List.replicate 32 0, List.replicate 32 7, List.replicate 12 0,
    [240, 224, 247, 85, 54, 114, 156, 205, 191, 235, 105, 234, 129, 161, 142, 125],
    [136, 19, 94, 217, 100, 17, 105, 21, 219, 172, 231, 70, 252, 61, 41, 94],
    ChaCha.encrypt (List.replicate 32 0) 1 (List.replicate 12 0)
      [240, 224, 247, 85, 54, 114, 156, 205, 191, 235, 105, 234, 129, 161, 142, 125],
    ChaCha.encrypt (List.replicate 32 7) 1 (List.replicate 12 0)
      [240, 224, 247, 85, 54, 114, 156, 205, 191, 235, 105, 234, 129, 161, 142, 125],
    by decide, by simp, by simp, by simp, rfl, rfl, ?_, ?_⟩
  · rw [C39_decrypt _ _ _ _ _ (by simp) (by simp) (by decide), if_pos (by decide +kernel)]
  · rw [C39_decrypt _ _ _ _ _ (by simp) (by simp) (by decide), if_pos (by decide +kernel)]

end Hacspec.Props
