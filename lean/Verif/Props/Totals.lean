import Verif.Props.Hmacs
import Verif.Props.ChaChas
import Verif.Props.Aess
import Verif.Props.Blake2s
import Verif.Props.Fips202s

/-! # C58: the symmetric primitives never panic

Every function is applied to arguments of its Rust types: `Key`, `Block`, `IV`, `Tag` … are arrays, so their lengths are
given; byte sequences have any length that fits the address space (`2^63`), or the length limit of the algorithm
where that is smaller. -/

namespace Hacspec.Props

open SecretInt Spec

/-- The computation neither panics nor diverges, and its result satisfies `P`. -/
def Succeeds {α : Type} (c : M α) (P : α → Prop) : Prop := ∃ r, c = .ok r ∧ P r

/-- **C58.**  SHA-256, with the length limit of FIPS 180-4. -/
theorem C58_sha256 (m : List U8) (h : m.length < 2 ^ 61) : Succeeds (Sha2.hash m) (·.length = 32) :=
  ⟨_, usedHash_hash.hash m h, usedHash_hash.length h⟩

/-- **C58.**  HMAC and HKDF (for output lengths up to 8128 bytes; longer outputs panic, see C34). -/
theorem C58_hmac (k m : List U8) (hk : k.length < 2 ^ 61) (hm : 64 + m.length < 2 ^ 61) :
    Succeeds (Hmac.hmac k m) (·.length = 32) ∧ Succeeds (Hkdf.extract k m) (·.length = 32) := by
  refine ⟨C33_length k m hk hm, _, Hkdf.extract_ok usedHash_hash hk hm, ?_⟩
  rw [hkdfExtract]
  split
  · exact Hmac.length_hmac usedHash_hash (by simp) hm
  · exact Hmac.length_hmac usedHash_hash hk hm

theorem C58_hkdf_expand (prk info : List U8) (l : Nat) (hk : prk.length < 2 ^ 61) (hi : 97 + info.length < 2 ^ 61) :
    Succeeds (Hkdf.expand prk info l) (·.length = l) ↔ l ≤ 8128 := by
  constructor
  · rintro ⟨r, h, _⟩
    by_contra hl
    rw [C34_expand_limit_refuted prk info l (by omega)] at h
    simp at h
  · intro hl
    obtain ⟨x, _, h1, _, h2, _⟩ := C34_expand_prefix prk info l l hk hi (Nat.le_refl l) hl
    exact ⟨x, h1, h2⟩

/-- **C58.**  ChaCha20, Poly1305 and the AEAD, for both directions and every tag. -/
theorem C58_chacha20_poly1305 (key iv aad m tag : List U8) (hk : key.length = 32) (hi : iv.length = 12)
    (hm : m.length < 2 ^ 63) (ctr : U32) :
    Succeeds (Hacspec.ChaCha.block key ctr iv) (·.length = 64) ∧
    Succeeds (Hacspec.ChaCha.chacha key iv m) (·.length = m.length) ∧
    Succeeds (Hacspec.Poly1305.poly m key) (·.length = 16) ∧
    Succeeds (Hacspec.ChaChaPoly.encrypt key iv aad m) (fun r => r.1.length = m.length ∧ r.2.length = 16) ∧
    Succeeds (Hacspec.ChaChaPoly.decrypt key iv aad m tag) (fun r => ∀ p, r = some p → p.length = m.length) := by
  have hl := encrypt_length (m := m) (c := 1) hk hi
  refine ⟨⟨_, C35_block key iv ctr hk hi, Hacspec.ChaCha.length_blockFn ctr hk hi⟩, ⟨_, C35_chacha key iv m hk hi hm, hl⟩,
    C38_total m key hk, ⟨_, C39_encrypt key iv aad m hk hi hm, hl, length_leBytes _ _⟩,
    ⟨_, C39_decrypt key iv aad m tag hk hi hm, ?_⟩⟩
  intro p hp
  split at hp
  · cases hp; exact hl
  · cases hp

/-- **C58.**  AES (both key sizes), counter mode and AES-GCM, for both directions and every tag. -/
theorem C58_aes_gcm (alg : Hacspec.Aes.Variant) (key iv aad m tag block : List U8) (hk : key.length = 4 * Hacspec.Aes.nk alg)
    (hi : iv.length = 12) (hm : m.length < 2 ^ 63) (ht : tag.length = 16) (hb : block.length = 16) (ctr : U32) :
    Succeeds (Hacspec.Aes.encryptBlock key block (Hacspec.Aes.nk alg) (Hacspec.Aes.nr alg) alg) (·.length = 16) ∧
    Succeeds (Hacspec.Aes.encryptKey key iv ctr m alg) (·.length = m.length) ∧
    Succeeds (Gf128.gmac m block) (·.length = 16) ∧
    Succeeds (Hacspec.AesGcm.encryptKey key iv aad m alg) (fun r => r.1.length = m.length ∧ r.2.length = 16) ∧
    Succeeds (Hacspec.AesGcm.decryptKey key iv aad m tag alg) (fun r => ∀ p, r = some p → p.length = m.length) := by
  have hl : ∀ c : U32, (Spec.Aes.ctr (Hacspec.Aes.nk alg) (Hacspec.Aes.nr alg) key iv c m).length = m.length :=
    fun c => ctr_length hk
  obtain ⟨c, t, h1, h2, h3, _⟩ := C45_round_trip alg key iv aad m hk hi hm
  refine ⟨⟨_, C42_cipher alg key block hk hb, Hacspec.Aes.length_cipher _ hk⟩, ⟨_, encryptKey_ok hk hi hm, hl ctr⟩,
    ⟨_, C44_gmac m block hb, Gf128.length_ghash m⟩, ⟨_, h1, h2, h3⟩, ⟨_, C45_decrypt alg key iv aad m tag hk hi hm ht, ?_⟩⟩
  intro p hp
  split at hp
  · cases hp; exact hl 2
  · cases hp

/-- **C58.**  BLAKE2b, SHA-3 and SHAKE, the latter for every output length. -/
theorem C58_blake2b_sha3 (m : List U8) (n : Nat) (hm : m.length < 2 ^ 63) :
    Succeeds (Hacspec.Blake2.blake2b m) (·.length = 64) ∧
    Succeeds (Hacspec.Fips202.sha3224 m) (·.length = 28) ∧ Succeeds (Hacspec.Fips202.sha3256 m) (·.length = 32) ∧
    Succeeds (Hacspec.Fips202.sha3384 m) (·.length = 48) ∧ Succeeds (Hacspec.Fips202.sha3512 m) (·.length = 64) ∧
    Succeeds (Hacspec.Fips202.shake128 m n) (·.length = n) ∧ Succeeds (Hacspec.Fips202.shake256 m n) (·.length = n) := by
  obtain ⟨_, a1, a2, _⟩ := C49_sha3_224 m hm
  obtain ⟨_, b1, b2, _⟩ := C49_sha3_256 m hm
  obtain ⟨_, c1, c2, _⟩ := C49_sha3_384 m hm
  obtain ⟨_, d1, d2, _⟩ := C49_sha3_512 m hm
  obtain ⟨_, e1, e2, _⟩ := C49_shake128 m hm n
  obtain ⟨_, f1, f2, _⟩ := C49_shake256 m hm n
  exact ⟨C46_total m hm, ⟨_, a1, a2⟩, ⟨_, b1, b2⟩, ⟨_, c1, c2⟩, ⟨_, d1, d2⟩, ⟨_, e1, e2⟩, ⟨_, f1, f2⟩⟩

example := C58_sha256 [1, 2, 3] (by decide)
example := C58_hmac [1] [2] (by decide) (by decide)
example := C58_chacha20_poly1305 (List.replicate 32 1) (List.replicate 12 2) [3] [4] [5] (by simp) (by simp) (by simp) 6
example := C58_aes_gcm .aes256 (List.replicate 32 1) (List.replicate 12 2) [3] [4] (List.replicate 16 5) (List.replicate 16 6)
  (by simp [Hacspec.Aes.nk]) (by simp) (by simp) (by simp) (by simp) 7
example := C58_blake2b_sha3 [1, 2, 3] 1000 (by decide)

end Hacspec.Props
