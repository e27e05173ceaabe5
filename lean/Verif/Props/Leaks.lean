import Verif.Lemmas.Leak.GcmTells
import Verif.Lemmas.Leak.Sha2
import Verif.Lemmas.Leak.Blake2
import Verif.Lemmas.Leak.Fips202
import Verif.Lemmas.Leak.Poly1305
import Verif.Lemmas.Leak.Curves
import Verif.Props.Aess
import Verif.Props.ChaChas
import Verif.Props.P256s
import Verif.Props.X25519s

/-! # C89, C90: what control flow and memory accesses reveal

`Verif/Model/Leak` is the model with the visible events: indices of accesses, outcomes of branches, numbers of
iterations.  `(Leak.f x).trace` is the list of events of the call `f(x)`. -/

namespace Hacspec.Props

open SecretInt Spec Hacspec.AbstractInt

/-! ## Forgetting the events gives the model of the other properties -/

theorem C89_same_functions_stream (key iv m aad c t : List U8) :
    (Leak.ChaCha.chacha key iv m).res = Hacspec.ChaCha.chacha key iv m ∧
    (Leak.ChaChaPoly.encrypt key iv aad m).res = Hacspec.ChaChaPoly.encrypt key iv aad m ∧
    (Leak.ChaChaPoly.decrypt key iv aad c t).res = Hacspec.ChaChaPoly.decrypt key iv aad c t ∧
    (Leak.Poly1305.poly m key).res = Hacspec.Poly1305.poly m key :=
  ⟨Leak.ChaCha.res_chacha _ _ _, Leak.ChaChaPoly.res_encrypt _ _ _ _, Leak.ChaChaPoly.res_decrypt _ _ _ _ _,
    Leak.Poly1305.res_poly _ _⟩

theorem C89_same_functions_hash (k m : List U8) (n : Nat) :
    (Leak.Sha2.hash m).res = Hacspec.Sha2.hash m ∧
    (Leak.Hmac.hmac k m).res = Hacspec.Hmac.hmac k m ∧
    (Leak.Hkdf.extract k m).res = Hacspec.Hkdf.extract k m ∧
    (Leak.Hkdf.expand k m n).res = Hacspec.Hkdf.expand k m n ∧
    (Leak.Blake2.blake2b m).res = Hacspec.Blake2.blake2b m ∧
    (Leak.Fips202.sha3224 m).res = Hacspec.Fips202.sha3224 m ∧
    (Leak.Fips202.sha3256 m).res = Hacspec.Fips202.sha3256 m ∧
    (Leak.Fips202.sha3384 m).res = Hacspec.Fips202.sha3384 m ∧
    (Leak.Fips202.sha3512 m).res = Hacspec.Fips202.sha3512 m ∧
    (Leak.Fips202.shake128 m n).res = Hacspec.Fips202.shake128 m n ∧
    (Leak.Fips202.shake256 m n).res = Hacspec.Fips202.shake256 m n :=
  ⟨Leak.Sha2.res_hash _, Leak.Hmac.res_hmac _ _, Leak.Hkdf.res_extract _ _, Leak.Hkdf.res_expand _ _ _,
    Leak.Blake2.res_blake2b _, Leak.Fips202.res_sha3224 _, Leak.Fips202.res_sha3256 _, Leak.Fips202.res_sha3384 _,
    Leak.Fips202.res_sha3512 _, Leak.Fips202.res_shake128 _ _, Leak.Fips202.res_shake256 _ _⟩

theorem C90_same_functions (alg : Hacspec.Aes.Variant) (key iv aad m t : List U8) (c : U32) (x y : U128) (k : Canvas) :
    (Leak.Aes.encryptBlock key m (Hacspec.Aes.nk alg) (Hacspec.Aes.nr alg) alg).res =
      Hacspec.Aes.encryptBlock key m (Hacspec.Aes.nk alg) (Hacspec.Aes.nr alg) alg ∧
    (Leak.Aes.encrypt key iv c m alg).res = Hacspec.Aes.encrypt key iv c m alg ∧
    (Leak.AesGcm.encryptKey key iv aad m alg).res = Hacspec.AesGcm.encryptKey key iv aad m alg ∧
    (Leak.AesGcm.decryptKey key iv aad m t alg).res = Hacspec.AesGcm.decryptKey key iv aad m t alg ∧
    (Leak.Gf128.fmul x y).res = Hacspec.Gf128.fmul x y ∧ (Leak.Gf128.gmac m key).res = Hacspec.Gf128.gmac m key ∧
    (Leak.Curve25519.scalarmult key m).res = Hacspec.Curve25519.scalarmult key m ∧
    (Leak.P256.pointMul k).res = Hacspec.P256.pointMul k :=
  ⟨Leak.Aes.res_encryptBlock _ _ _ _ _, Leak.Aes.res_encrypt _ _ _ _ _, Leak.AesGcm.res_encryptKey _ _ _ _ _,
    Leak.AesGcm.res_decryptKey _ _ _ _ _ _, Leak.Gf128.res_fmul _ _, Leak.Gf128.res_gmac _ _,
    Leak.Curve25519.res_scalarmult _ _, Leak.P256.res_pointMul _⟩

/-! ## C89: events that depend on lengths only -/

/-- **C89.**  ChaCha20: the events are the same for all keys, nonces and texts of the same lengths (of any lengths, also
when the call panics). -/
theorem C89_chacha20 (k k' iv iv' m m' : List U8) (hk : k.length = k'.length) (hi : iv.length = iv'.length)
    (hm : m.length = m'.length) : (Leak.ChaCha.chacha k iv m).trace = (Leak.ChaCha.chacha k' iv' m').trace :=
  (Leak.ChaCha.chacha_same hk hi hm).trace

/-- **C89.**  SHA-256. -/
theorem C89_sha256 (m m' : List U8) (hm : m.length = m'.length) :
    (Leak.Sha2.hash m).trace = (Leak.Sha2.hash m').trace := (Leak.Sha2.hash_same hm).trace

/-- **C89.**  HMAC-SHA-256. -/
theorem C89_hmac (k k' m m' : List U8) (hk : k.length = k'.length) (hm : m.length = m'.length) :
    (Leak.Hmac.hmac k m).trace = (Leak.Hmac.hmac k' m').trace := (Leak.Hmac.hmac_same hk hm).trace

/-- **C89.**  HKDF. -/
theorem C89_hkdf (a a' b b' : List U8) (n : Nat) (ha : a.length = a'.length) (hb : b.length = b'.length) :
    (Leak.Hkdf.extract a b).trace = (Leak.Hkdf.extract a' b').trace ∧
    (Leak.Hkdf.expand a b n).trace = (Leak.Hkdf.expand a' b' n).trace :=
  ⟨(Leak.Hkdf.extract_same ha hb).trace, (Leak.Hkdf.expand_same ha hb).trace⟩

/-- **C89.**  BLAKE2b. -/
theorem C89_blake2b (m m' : List U8) (hm : m.length = m'.length) :
    (Leak.Blake2.blake2b m).trace = (Leak.Blake2.blake2b m').trace := (Leak.Blake2.blake2b_same hm).trace

/-- **C89.**  SHA-3 and SHAKE. -/
theorem C89_sha3 (m m' : List U8) (n : Nat) (hm : m.length = m'.length) :
    (Leak.Fips202.sha3224 m).trace = (Leak.Fips202.sha3224 m').trace ∧
    (Leak.Fips202.sha3256 m).trace = (Leak.Fips202.sha3256 m').trace ∧
    (Leak.Fips202.sha3384 m).trace = (Leak.Fips202.sha3384 m').trace ∧
    (Leak.Fips202.sha3512 m).trace = (Leak.Fips202.sha3512 m').trace ∧
    (Leak.Fips202.shake128 m n).trace = (Leak.Fips202.shake128 m' n).trace ∧
    (Leak.Fips202.shake256 m n).trace = (Leak.Fips202.shake256 m' n).trace :=
  ⟨(Leak.Fips202.sha3224_same hm).trace, (Leak.Fips202.sha3256_same hm).trace, (Leak.Fips202.sha3384_same hm).trace,
    (Leak.Fips202.sha3512_same hm).trace, (Leak.Fips202.shake128_same hm).trace, (Leak.Fips202.shake256_same hm).trace⟩

/-- Two keys and two texts; the list of events is not empty, and texts of other lengths have other events. -/
example : (Leak.ChaCha.chacha (List.replicate 32 0) (List.replicate 12 0) [1, 2, 3]).trace =
      (Leak.ChaCha.chacha (List.replicate 32 7) (List.replicate 12 9) [4, 5, 6]).trace :=
  C89_chacha20 _ _ _ _ _ _ (by simp) (by simp) rfl

theorem chacha_lengths_visible :
    (Leak.ChaCha.chacha (List.replicate 32 0) (List.replicate 12 0) [1, 2, 3]).trace ≠
      (Leak.ChaCha.chacha (List.replicate 32 0) (List.replicate 12 0) [1, 2]).trace := by decide +kernel

example := C89_hmac (List.replicate 32 0) (List.replicate 32 1) [1] [2] (by simp) rfl

/-! ## C90: AES -/

/-- **C90, refuted** for AES: the indices into the S-box table show the key.  Two encryptions of the same known block
with the same events use the same key. -/
theorem C90_aes_block_refuted (alg : Hacspec.Aes.Variant) (k k' x : List U8) (hk : k.length = 4 * Hacspec.Aes.nk alg)
    (hk' : k'.length = 4 * Hacspec.Aes.nk alg) (hx : x.length = 16) :
    (Leak.Aes.encryptBlock k x (Hacspec.Aes.nk alg) (Hacspec.Aes.nr alg) alg).trace =
      (Leak.Aes.encryptBlock k' x (Hacspec.Aes.nk alg) (Hacspec.Aes.nr alg) alg).trace ↔ k = k' := by
  refine ⟨fun h => ?_, fun h => by rw [h]⟩
  exact (Leak.Aes.encryptBlock_tells hk hk' hx).trace
    ((Leak.Aes.res_encryptBlock _ _ _ _ _).trans (Hacspec.Aes.encryptBlock_ok hk hx))
    ((Leak.Aes.res_encryptBlock _ _ _ _ _).trans (Hacspec.Aes.encryptBlock_ok hk' hx)) h

/-- **C90, refuted** for the two entry points with fixed variants. -/
theorem C90_aes_entry_refuted (k k' x : List U8) (hx : x.length = 16) :
    (Leak.Aes.aes128EncryptBlock k x 4 10).res = Hacspec.Aes.aes128EncryptBlock k x 4 10 ∧
    (Leak.Aes.aes256EncryptBlock k x 8 14).res = Hacspec.Aes.aes256EncryptBlock k x 8 14 ∧
    (k.length = 16 → k'.length = 16 → ((Leak.Aes.aes128EncryptBlock k x 4 10).trace =
      (Leak.Aes.aes128EncryptBlock k' x 4 10).trace ↔ k = k')) ∧
    (k.length = 32 → k'.length = 32 → ((Leak.Aes.aes256EncryptBlock k x 8 14).trace =
      (Leak.Aes.aes256EncryptBlock k' x 8 14).trace ↔ k = k')) := by
  have hf : ∀ y : List U8, (Leak.Seq.fromSeq y).res = .ok y := fun y => by
    rw [Leak.Seq.res_fromSeq, Hacspec.Seq.fromSeq_ok]
  refine ⟨Leak.Aes.res_aes128EncryptBlock _ _ _ _, Leak.Aes.res_aes256EncryptBlock _ _ _ _, fun hk hk' => ?_,
    fun hk hk' => ?_⟩
  · have hs := (Leak.Seq.fromSeq_same (x := k) (x' := k') (hk.trans hk'.symm)).trace
    rw [Leak.Aes.aes128EncryptBlock, Leak.Aes.aes128EncryptBlock, Leak.trace_bind_ok (hf k), Leak.trace_bind_ok (hf k'), hs,
      List.append_cancel_left_eq]
    exact C90_aes_block_refuted .aes128 k k' x hk hk' hx
  · have hs := (Leak.Seq.fromSeq_same (x := k) (x' := k') (hk.trans hk'.symm)).trace
    rw [Leak.Aes.aes256EncryptBlock, Leak.Aes.aes256EncryptBlock, Leak.trace_bind_ok (hf k), Leak.trace_bind_ok (hf k'), hs,
      List.append_cancel_left_eq]
    exact C90_aes_block_refuted .aes256 k k' x hk hk' hx

/-- **C90, refuted** for AES in counter mode: with a known nonce and counter and any unknown texts of the same length,
the events show the key. -/
theorem C90_aes_ctr_refuted (alg : Hacspec.Aes.Variant) (k k' n m m' : List U8) (c : U32)
    (hk : k.length = 4 * Hacspec.Aes.nk alg) (hk' : k'.length = 4 * Hacspec.Aes.nk alg) (hn : n.length = 12)
    (hm : m.length = m'.length) (h0 : m ≠ []) (h1 : m.length < 2 ^ 63)
    (h : (Leak.Aes.encrypt k n c m alg).trace = (Leak.Aes.encrypt k' n c m' alg).trace) : k = k' := by
  exact ((Leak.Aes.counterMode_tells hk hk' hm).trace
    ((Leak.Aes.res_counterMode _ _ _ _ _ _ _).trans (Hacspec.Aes.counterMode_ok c hk hn h1))
    ((Leak.Aes.res_counterMode _ _ _ _ _ _ _).trans (Hacspec.Aes.counterMode_ok c hk' hn (by omega))) h).1
    (List.length_pos_iff.2 h0) h1

/-- C90, the part that holds for AES: with the same key, nonce and counter the events are the same for all texts of the
same length. -/
theorem C90_aes_ctr_partial (alg : Hacspec.Aes.Variant) (k n m m' : List U8) (c : U32) (hm : m.length = m'.length) :
    (Leak.Aes.encrypt k n c m alg).trace = (Leak.Aes.encrypt k n c m' alg).trace :=
  (Leak.Aes.counterMode_same hm).trace

/-- **C90, refuted** for AES-GCM: the events of an encryption show the key, whatever the nonces, additional data and
texts are. -/
theorem C90_gcm_encrypt_refuted (alg : Hacspec.Aes.Variant) (k k' n n' a a' m m' : List U8)
    (hk : k.length = 4 * Hacspec.Aes.nk alg) (hk' : k'.length = 4 * Hacspec.Aes.nk alg)
    (h : (Leak.AesGcm.encryptKey k n a m alg).trace = (Leak.AesGcm.encryptKey k' n' a' m' alg).trace) : k = k' :=
  Leak.AesGcm.encryptKey_head hk hk' h

/-- **C90, refuted** for the decryption of AES-GCM, also when it rejects. -/
theorem C90_gcm_decrypt_refuted (alg : Hacspec.Aes.Variant) (k k' n n' a a' c c' t t' : List U8)
    (hk : k.length = 4 * Hacspec.Aes.nk alg) (hk' : k'.length = 4 * Hacspec.Aes.nk alg)
    (h : (Leak.AesGcm.decryptKey k n a c t alg).trace = (Leak.AesGcm.decryptKey k' n' a' c' t' alg).trace) : k = k' :=
  Leak.AesGcm.decryptKey_head hk hk' h

/-- **C90, refuted** for the multiplication of GCM: the branches show both factors. -/
theorem C90_fmul_refuted (x x' y y' : U128) :
    (Leak.Gf128.fmul x y).trace = (Leak.Gf128.fmul x' y').trace ↔ x = x' ∧ y = y' := by
  refine ⟨fun h => ?_, fun h => by rw [h.1, h.2]⟩
  exact Leak.Gf128.fmul_tells.trace ((Leak.Gf128.res_fmul _ _).trans (Hacspec.Gf128.fmul_ok x y))
    ((Leak.Gf128.res_fmul _ _).trans (Hacspec.Gf128.fmul_ok x' y')) h

/-- **C90, refuted** for the MAC of GCM: the events show the text and, unless the text is empty, the key. -/
theorem C90_gmac_refuted (m m' k k' : List U8) (hm : m.length = m'.length) (hk : k.length = 16) (hk' : k'.length = 16)
    (h : (Leak.Gf128.gmac m k).trace = (Leak.Gf128.gmac m' k').trace) : m = m' ∧ (m ≠ [] → k = k') :=
  (Leak.Gf128.gmac_tells hm hk hk').trace ((Leak.Gf128.res_gmac _ _).trans (Hacspec.Gf128.gmac_ok hk))
    ((Leak.Gf128.res_gmac _ _).trans (Hacspec.Gf128.gmac_ok hk')) h

example := C90_aes_block_refuted .aes128 (List.replicate 16 0) (List.replicate 16 1) (List.replicate 16 7)
  (by simp [Hacspec.Aes.nk]) (by simp [Hacspec.Aes.nk]) (by simp)

/-- Equal events are possible: equal calls have them; two different keys never have the same events. -/
example : (Leak.AesGcm.encryptKey (List.replicate 16 0) (List.replicate 12 0) [] [1] .aes128).trace ≠
    (Leak.AesGcm.encryptKey (List.replicate 16 1) (List.replicate 12 0) [] [1] .aes128).trace := fun h => by
  have := C90_gcm_encrypt_refuted .aes128 _ _ _ _ _ _ _ _ (by simp [Hacspec.Aes.nk]) (by simp [Hacspec.Aes.nk]) h
  revert this
  decide

example := C90_gmac_refuted (List.replicate 16 3) (List.replicate 16 4) (List.replicate 16 0) (List.replicate 16 1) rfl
  (by simp) (by simp)

/-! ## C90: curves -/

/-- **C90, refuted** for X25519: the events are the same exactly if the scalars are the same (after clamping) and the
results have the same number of bytes without leading zeros.  The points have no other influence. -/
theorem C90_x25519_refuted (s s' u u' r r' : List U8) (hs : s.length = 32) (hs' : s'.length = 32) (hu : u.length = 32)
    (hu' : u'.length = 32) (hr : Hacspec.Curve25519.scalarmult s u = .ok r)
    (hr' : Hacspec.Curve25519.scalarmult s' u' = .ok r') :
    (Leak.Curve25519.scalarmult s u).trace = (Leak.Curve25519.scalarmult s' u').trace ↔
      X25519.scalar s = X25519.scalar s' ∧ ∀ j, 1 ≤ j → (leVal r < 256 ^ j ↔ leVal r' < 256 ^ j) := by
  have hl : u.length = u'.length := hu.trans hu'.symm
  have e := (Leak.Curve25519.res_scalarmult s u).trans hr
  have e' := (Leak.Curve25519.res_scalarmult s' u').trans hr'
  rw [← Leak.Curve25519.size_iff]
  refine ⟨fun h => (Leak.Curve25519.scalarmult_tells hs hs' hl).trace e e' h, fun h => ?_⟩
  exact (Leak.Curve25519.scalarmult_sync hs hs' hl h.1 hr hr' h.2 _ _ e e').1

/-- The results exist for all strings of 32 bytes. -/
example (s u : List U8) (hs : s.length = 32) (hu : u.length = 32) : ∃ r, Hacspec.Curve25519.scalarmult s u = .ok r := by
  obtain ⟨v, h, _⟩ := C52_scalarmult s u hs hu
  exact ⟨_, h⟩

/-- **C90, refuted** for P-256: the events of `point_mul` show the scalar. -/
theorem C90_p256_refuted (k k' : Canvas) (hk : Reach 256 false k) (hk' : Reach 256 false k') :
    (Leak.P256.pointMul k).trace = (Leak.P256.pointMul k').trace ↔ val k = val k' := by
  obtain ⟨h1, h2⟩ := p256_bits hk
  obtain ⟨h1', h2'⟩ := p256_bits hk'
  obtain ⟨x, y, h3, _⟩ := C55_point_mul k hk
  obtain ⟨x', y', h3', _⟩ := C55_point_mul k' hk'
  refine ⟨fun h => ?_, fun h => ?_⟩
  · exact (Leak.P256.pointMul_tells h1 h1' h2 h2').trace ((Leak.P256.res_pointMul k).trans h3)
      ((Leak.P256.res_pointMul k').trans h3') h
  · exact congrArg _ (Leak.P256.pointMul_congr (k' := k') fun i hi => by rw [h2 i hi, h2' i hi, h])

/-! ## C90: Poly1305 -/

/-- The number whose 16 low bytes are the tag. -/
def tagNumber (m key : List U8) : Nat := (Poly1305.acc (Poly1305.clampR key) m + Poly1305.keyS key) % Poly1305.p

/-- C90 for Poly1305, what the events depend on: for texts of the same length they are the same exactly if the sums have
the same number of bytes without leading zeros (or both at least 16). -/
theorem C90_poly1305_partial (m m' k k' : List U8) (hm : m.length = m'.length) (hk : k.length = 32) (hk' : k'.length = 32) :
    (Leak.Poly1305.poly m k).trace = (Leak.Poly1305.poly m' k').trace ↔
      ∀ j, 1 ≤ j → j < 16 → (tagNumber m k < 256 ^ j ↔ tagNumber m' k' < 256 ^ j) := by
  have e := (Leak.Poly1305.res_poly m k).trans (Hacspec.Poly1305.poly_ok hk)
  have e' := (Leak.Poly1305.res_poly m' k').trans (Hacspec.Poly1305.poly_ok hk')
  refine (?_ : _ ↔ Leak.Poly1305.copied (tagNumber m k) = Leak.Poly1305.copied (tagNumber m' k')).trans
    Leak.Poly1305.copied_iff
  exact ⟨fun h => (Leak.Poly1305.poly_tells hm hk hk').trace e e' h,
    fun h => (Leak.Poly1305.poly_sync hm hk hk' h _ _ e e').1⟩

/-- **C90, refuted** for Poly1305: two keys with different events on the empty text. -/
theorem C90_poly1305_refuted : (Leak.Poly1305.poly [] (List.replicate 32 0)).trace ≠
    (Leak.Poly1305.poly [] (List.replicate 32 255)).trace := by
  intro h
  have := (C90_poly1305_partial [] [] _ _ rfl (by simp) (by simp)).1 h 1 (by decide) (by decide)
  revert this
  decide +kernel

/-- The one-time key. -/
def oneTimeKey (key iv : List U8) : List U8 := (ChaCha.blockFn key 0 iv).take 32

theorem leakTagNumber (k iv a c : List U8) :
    tagNumber (Poly1305.macData a c) (oneTimeKey k iv) = Leak.ChaChaPoly.tagNumber k iv a c := by
  rw [Leak.ChaChaPoly.tagNumber, Leak.ChaChaPoly.otk_def, tagNumber, Leak.Poly1305.total, oneTimeKey]

/-- C90 for ChaCha20-Poly1305, what the events of an encryption depend on: lengths and the size of the sum of which the
tag is taken. -/
theorem C90_aead_encrypt_partial (k k' iv iv' a a' m m' : List U8) (hk : k.length = 32) (hk' : k'.length = 32)
    (hi : iv.length = 12) (hi' : iv'.length = 12) (ha : a.length = a'.length) (hm : m.length = m'.length)
    (hl : m.length < 2 ^ 63) :
    (Leak.ChaChaPoly.encrypt k iv a m).trace = (Leak.ChaChaPoly.encrypt k' iv' a' m').trace ↔
      ∀ j, 1 ≤ j → j < 16 →
        (tagNumber (Poly1305.macData a (ChaCha.encrypt k 1 iv m)) (oneTimeKey k iv) < 256 ^ j ↔
          tagNumber (Poly1305.macData a' (ChaCha.encrypt k' 1 iv' m')) (oneTimeKey k' iv') < 256 ^ j) := by
  have c := Hacspec.ChaCha.chacha_ok hk hi hl
  have c' := Hacspec.ChaCha.chacha_ok hk' hi' (show m'.length < 2 ^ 63 by omega)
  have e := (Leak.ChaChaPoly.res_encrypt k iv a m).trans (C39_encrypt k iv a m hk hi hl)
  have e' := (Leak.ChaChaPoly.res_encrypt k' iv' a' m').trans (C39_encrypt k' iv' a' m' hk' hi' (by omega))
  rw [leakTagNumber, leakTagNumber, ← Leak.Poly1305.copied_iff]
  have t := fun h => (Leak.ChaChaPoly.encrypt_tells hk hk' hi hi' ha hm).trace e e' h
  refine ⟨t, fun h => ?_⟩
  refine (Leak.ChaChaPoly.encrypt_sync hk hk' hi hi' ha hm (fun x x' hx hx' => ?_) _ _ e e').1
  rw [c, Except.ok.injEq] at hx
  rw [c', Except.ok.injEq] at hx'
  rw [← hx, ← hx']
  exact h

/-- C90 for ChaCha20-Poly1305, what the events of a decryption depend on: in addition, whether it accepts. -/
theorem C90_aead_decrypt_partial (k k' iv iv' a a' c c' t t' : List U8) (hk : k.length = 32) (hk' : k'.length = 32)
    (hi : iv.length = 12) (hi' : iv'.length = 12) (ha : a.length = a'.length) (hc : c.length = c'.length)
    (hl : c.length < 2 ^ 63) :
    (Leak.ChaChaPoly.decrypt k iv a c t).trace = (Leak.ChaChaPoly.decrypt k' iv' a' c' t').trace ↔
      (∀ j, 1 ≤ j → j < 16 →
        (tagNumber (Poly1305.macData a c) (oneTimeKey k iv) < 256 ^ j ↔
          tagNumber (Poly1305.macData a' c') (oneTimeKey k' iv') < 256 ^ j)) ∧
      (Hacspec.ChaChaPoly.decrypt k iv a c t = .ok none ↔ Hacspec.ChaChaPoly.decrypt k' iv' a' c' t' = .ok none) := by
  have d := C39_decrypt k iv a c t hk hi hl
  have d' := C39_decrypt k' iv' a' c' t' hk' hi' (by omega)
  have e := (Leak.ChaChaPoly.res_decrypt k iv a c t).trans d
  have e' := (Leak.ChaChaPoly.res_decrypt k' iv' a' c' t').trans d'
  have g : ∀ key iv a c, aeadTag key iv a c = leBytes 16 (Leak.ChaChaPoly.tagNumber key iv a c) := by
    intro key iv a c
    rw [← leakTagNumber, oneTimeKey, tagNumber, aeadTag]
  have f : ∀ (x y z : List U8), ((.ok (if x = y then some z else none) : M (Option (List U8))) = .ok none) ↔ ¬ y = x := by
    intro x y z
    by_cases h : x = y
    · simp [h]
    · rw [if_neg h]
      exact iff_of_true rfl (fun h' => h h'.symm)
  rw [d, d', f, f, not_iff_not, g, g, leakTagNumber, leakTagNumber, ← Leak.Poly1305.copied_iff]
  exact ⟨fun h => (Leak.ChaChaPoly.decrypt_tells hk hk' hi hi' ha hc).trace e e' h,
    fun h => (Leak.ChaChaPoly.decrypt_sync hk hk' hi hi' ha hc h.1 h.2 _ _ e e').1⟩

/-- **C90, refuted** for ChaCha20-Poly1305: two keys with different events for the same nonce, no additional data and the
empty text. -/
theorem C90_aead_refuted :
    (Leak.ChaChaPoly.encrypt (List.replicate 32 0) (List.replicate 12 0) [] []).trace ≠
      (Leak.ChaChaPoly.encrypt (78 :: List.replicate 31 0) (List.replicate 12 0) [] []).trace := by
  intro h
  have := (C90_aead_encrypt_partial _ _ _ _ _ _ _ _ (by simp) (by simp) (by simp) (by simp) rfl rfl (by simp)).1 h 15
    (by decide) (by decide)
  revert this
  decide +kernel

end Hacspec.Props
