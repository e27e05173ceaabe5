import Verif.Props.Totals
import Verif.Props.X25519s
import Verif.Lemmas.Release.Wider
import Verif.Lemmas.Release.ChaCha
import Verif.Lemmas.Release.Aes
import Verif.Lemmas.Release.Blake2
import Verif.Lemmas.Release.Fips202
import Verif.Lemmas.Release.Curve25519

/-! # C100–C102: the release build

The other files speak about a debug build.  `Verif/Model/Release/` models what `cargo build --release` makes of the same
functions: no `debug_assert!`, no overflow checks, shift amounts taken modulo the width. -/

namespace Hacspec.Props

open SecretInt Spec

/-! ## C100: the release build of the primitives computes the same -/

/-- **C100.**  SHA-256, HMAC and HKDF: whatever the debug build returns, for any arguments at all, the release build
returns. -/
theorem C100_keeps_sha2 (k m : List U8) (l : Nat) :
    Keeps (Sha2.hash m) (Release.Sha2.hash m) ∧ Keeps (Hmac.hmac k m) (Release.Hmac.hmac k m) ∧
    Keeps (Hkdf.extract k m) (Release.Hkdf.extract k m) ∧ Keeps (Hkdf.expand k m l) (Release.Hkdf.expand k m l) :=
  ⟨Release.Sha2.hash_keeps, Release.Hmac.hmac_keeps, Release.Hkdf.extract_keeps, Release.Hkdf.expand_keeps⟩

/-- **C100.**  ChaCha20, Poly1305 and the AEAD. -/
theorem C100_keeps_chacha20_poly1305 (key iv aad m tag : List U8) (ctr : U32) :
    Keeps (Hacspec.ChaCha.block key ctr iv) (Release.ChaCha.block key ctr iv) ∧
    Keeps (Hacspec.ChaCha.chacha key iv m) (Release.ChaCha.chacha key iv m) ∧
    Keeps (Hacspec.Poly1305.poly m key) (Release.Poly1305.poly m key) ∧
    Keeps (Hacspec.Poly1305.polyMac m key iv) (Release.Poly1305.polyMac m key iv) ∧
    Keeps (Hacspec.ChaChaPoly.encrypt key iv aad m) (Release.ChaChaPoly.encrypt key iv aad m) ∧
    Keeps (Hacspec.ChaChaPoly.decrypt key iv aad m tag) (Release.ChaChaPoly.decrypt key iv aad m tag) :=
  ⟨Release.ChaCha.block_keeps, Release.ChaCha.chacha_keeps, Release.Poly1305.poly_keeps, Release.Poly1305.polyMac_keeps,
    Release.ChaChaPoly.encrypt_keeps, Release.ChaChaPoly.decrypt_keeps⟩

/-- **C100.**  AES, counter mode, GHASH and AES-GCM, also through the entry points that take any parameters. -/
theorem C100_keeps_aes_gcm (key iv aad m tag block : List U8) (ctr : U32) (nk nr : Nat) (alg : Hacspec.Aes.Variant) :
    Keeps (Hacspec.Aes.aes128EncryptBlock key block nk nr) (Release.Aes.aes128EncryptBlock key block nk nr) ∧
    Keeps (Hacspec.Aes.aes256EncryptBlock key block nk nr) (Release.Aes.aes256EncryptBlock key block nk nr) ∧
    Keeps (Hacspec.Aes.encryptKey key iv ctr m alg) (Release.Aes.encryptKey key iv ctr m alg) ∧
    Keeps (Gf128.gmac m block) (Release.Gf128.gmac m block) ∧
    Keeps (Hacspec.AesGcm.encryptKey key iv aad m alg) (Release.AesGcm.encryptKey key iv aad m alg) ∧
    Keeps (Hacspec.AesGcm.decryptKey key iv aad m tag alg) (Release.AesGcm.decryptKey key iv aad m tag alg) :=
  ⟨Release.Aes.aes128EncryptBlock_keeps, Release.Aes.aes256EncryptBlock_keeps, Release.Aes.encryptKey_keeps,
    Release.Gf128.gmac_keeps, Release.AesGcm.encryptKey_keeps, Release.AesGcm.decryptKey_keeps⟩

/-- **C100.**  BLAKE2b, SHA-3 and SHAKE. -/
theorem C100_keeps_blake2b_sha3 (m : List U8) (n : Nat) :
    Keeps (Hacspec.Blake2.blake2b m) (Release.Blake2.blake2b m) ∧
    Keeps (Hacspec.Fips202.sha3224 m) (Release.Fips202.sha3224 m) ∧
    Keeps (Hacspec.Fips202.sha3256 m) (Release.Fips202.sha3256 m) ∧
    Keeps (Hacspec.Fips202.sha3384 m) (Release.Fips202.sha3384 m) ∧
    Keeps (Hacspec.Fips202.sha3512 m) (Release.Fips202.sha3512 m) ∧
    Keeps (Hacspec.Fips202.shake128 m n) (Release.Fips202.shake128 m n) ∧
    Keeps (Hacspec.Fips202.shake256 m n) (Release.Fips202.shake256 m n) :=
  ⟨Release.Blake2.blake2b_keeps, Release.Fips202.sha3224_keeps, Release.Fips202.sha3256_keeps,
    Release.Fips202.sha3384_keeps, Release.Fips202.sha3512_keeps, Release.Fips202.shake128_keeps,
    Release.Fips202.shake256_keeps⟩

/-- **C100.**  X25519. -/
theorem C100_keeps_x25519 (s u : List U8) :
    Keeps (Curve25519.scalarmult s u) (Release.Curve25519.scalarmult s u) ∧
    Keeps (Curve25519.secretToPublic s) (Release.Curve25519.secretToPublic s) :=
  ⟨Release.Curve25519.scalarmult_keeps, Release.Curve25519.secretToPublic_keeps⟩

/-- If the debug build succeeds, the two builds agree. -/
theorem keeps_eq {α : Type} {debug release : M α} {P : α → Prop} (h : Keeps debug release) (hs : Succeeds debug P) :
    release = debug := by
  obtain ⟨r, hr, _⟩ := hs
  rw [hr, h r hr]

/-- **C100.**  On arguments of their Rust types (with the length limits of C58) the builds agree completely. -/
theorem C100_sha2 (k m : List U8) (l : Nat) (hk : k.length < 2 ^ 61) (hm : 97 + m.length < 2 ^ 61) (hl : l ≤ 8128) :
    Release.Sha2.hash m = Sha2.hash m ∧ Release.Hmac.hmac k m = Hmac.hmac k m ∧
    Release.Hkdf.extract k m = Hkdf.extract k m ∧ Release.Hkdf.expand k m l = Hkdf.expand k m l := by
  obtain ⟨h1, h2, h3, h4⟩ := C100_keeps_sha2 k m l
  obtain ⟨s2, s3⟩ := C58_hmac k m hk (by omega)
  exact ⟨keeps_eq h1 (C58_sha256 m (by omega)), keeps_eq h2 s2, keeps_eq h3 s3,
    keeps_eq h4 ((C58_hkdf_expand k m l hk hm).mpr hl)⟩

theorem C100_chacha20_poly1305 (key iv aad m tag : List U8) (hk : key.length = 32) (hi : iv.length = 12)
    (hm : m.length < 2 ^ 63) (ctr : U32) :
    Release.ChaCha.block key ctr iv = Hacspec.ChaCha.block key ctr iv ∧
    Release.ChaCha.chacha key iv m = Hacspec.ChaCha.chacha key iv m ∧
    Release.Poly1305.poly m key = Hacspec.Poly1305.poly m key ∧
    Release.ChaChaPoly.encrypt key iv aad m = Hacspec.ChaChaPoly.encrypt key iv aad m ∧
    Release.ChaChaPoly.decrypt key iv aad m tag = Hacspec.ChaChaPoly.decrypt key iv aad m tag := by
  obtain ⟨h1, h2, h3, _, h4, h5⟩ := C100_keeps_chacha20_poly1305 key iv aad m tag ctr
  obtain ⟨s1, s2, s3, s4, s5⟩ := C58_chacha20_poly1305 key iv aad m tag hk hi hm ctr
  exact ⟨keeps_eq h1 s1, keeps_eq h2 s2, keeps_eq h3 s3, keeps_eq h4 s4, keeps_eq h5 s5⟩

theorem C100_aes_gcm (alg : Hacspec.Aes.Variant) (key iv aad m tag block : List U8)
    (hk : key.length = 4 * Hacspec.Aes.nk alg) (hi : iv.length = 12) (hm : m.length < 2 ^ 63) (ht : tag.length = 16)
    (hb : block.length = 16) (ctr : U32) :
    Release.Aes.encryptBlock key block (Hacspec.Aes.nk alg) (Hacspec.Aes.nr alg) alg =
      Hacspec.Aes.encryptBlock key block (Hacspec.Aes.nk alg) (Hacspec.Aes.nr alg) alg ∧
    Release.Aes.encryptKey key iv ctr m alg = Hacspec.Aes.encryptKey key iv ctr m alg ∧
    Release.Gf128.gmac m block = Gf128.gmac m block ∧
    Release.AesGcm.encryptKey key iv aad m alg = Hacspec.AesGcm.encryptKey key iv aad m alg ∧
    Release.AesGcm.decryptKey key iv aad m tag alg = Hacspec.AesGcm.decryptKey key iv aad m tag alg := by
  obtain ⟨_, _, h2, h3, h4, h5⟩ := C100_keeps_aes_gcm key iv aad m tag block ctr 0 0 alg
  obtain ⟨s1, s2, s3, s4, s5⟩ := C58_aes_gcm alg key iv aad m tag block hk hi hm ht hb ctr
  exact ⟨keeps_eq Release.Aes.encryptBlock_keeps s1, keeps_eq h2 s2, keeps_eq h3 s3, keeps_eq h4 s4, keeps_eq h5 s5⟩

theorem C100_blake2b_sha3 (m : List U8) (n : Nat) (hm : m.length < 2 ^ 63) :
    Release.Blake2.blake2b m = Hacspec.Blake2.blake2b m ∧
    Release.Fips202.sha3224 m = Hacspec.Fips202.sha3224 m ∧ Release.Fips202.sha3256 m = Hacspec.Fips202.sha3256 m ∧
    Release.Fips202.sha3384 m = Hacspec.Fips202.sha3384 m ∧ Release.Fips202.sha3512 m = Hacspec.Fips202.sha3512 m ∧
    Release.Fips202.shake128 m n = Hacspec.Fips202.shake128 m n ∧
    Release.Fips202.shake256 m n = Hacspec.Fips202.shake256 m n := by
  obtain ⟨h1, h2, h3, h4, h5, h6, h7⟩ := C100_keeps_blake2b_sha3 m n
  obtain ⟨s1, s2, s3, s4, s5, s6, s7⟩ := C58_blake2b_sha3 m n hm
  exact ⟨keeps_eq h1 s1, keeps_eq h2 s2, keeps_eq h3 s3, keeps_eq h4 s4, keeps_eq h5 s5, keeps_eq h6 s6, keeps_eq h7 s7⟩

/-- **C100.**  X25519; `secret_to_public` panics in the release build too (compare C53). -/
theorem C100_x25519 (s u : List U8) :
    (s.length = 32 → u.length = 32 → Release.Curve25519.scalarmult s u = Curve25519.scalarmult s u) ∧
    Release.Curve25519.secretToPublic s = panic := by
  refine ⟨fun hs hu => ?_, rfl⟩
  obtain ⟨v, h, _⟩ := C52_scalarmult s u hs hu
  exact keeps_eq (P := fun _ => True) (C100_keeps_x25519 s u).1 ⟨_, h, trivial⟩

/-- The release build of ChaCha20 computes RFC 8439, of AES FIPS 197. -/
example (key iv m : List U8) (hk : key.length = 32) (hi : iv.length = 12) (hm : m.length < 2 ^ 63) :
    Release.ChaCha.chacha key iv m = .ok (ChaCha.encrypt key 1 iv m) := by
  rw [(C100_chacha20_poly1305 key iv [] m [] hk hi hm 0).2.1, C35_chacha key iv m hk hi hm]

example (key s : List U8) (hk : key.length = 32) (hs : s.length = 16) :
    Release.Aes.encryptBlock key s 8 14 .aes256 = .ok (Spec.Aes.cipher 8 14 key s) :=
  ((C100_aes_gcm .aes256 key (List.replicate 12 0) [] [] (List.replicate 16 0) s hk (by simp) (by simp) (by simp) hs 0).1).trans
    (C42_cipher .aes256 key s hk hs)

example := C100_sha2 [1] [2] 42 (by decide) (by decide) (by decide)
example := C100_blake2b_sha3 [1, 2, 3] 1000 (by decide)
example := (C100_x25519 (List.replicate 32 1) (List.replicate 32 2)).1 (by simp) (by simp)

/-! ## C101: the sequence library in a release build -/

section
variable {α : Type} [Inhabited α]

/-- **C101.**  `update_sub`, with wrapping index sums, on vectors that fit memory: nothing happens for length 0; otherwise
both windows must fit, and then the window is replaced.  (A debug build also panics for length 0 when a start is out of
range.) -/
theorem C101_update_sub (v x : List α) (so si len : Nat) (hv : v.length < 2 ^ 63) (hx : x.length < 2 ^ 63)
    (ho : so < 2 ^ 64) (hi : si < 2 ^ 64) :
    Release.Seq.updateSubUsize v so x si len =
      if len = 0 ∨ so + len ≤ v.length ∧ si + len ≤ x.length then
        .ok (v.take so ++ (x.drop si).take len ++ v.drop (so + len))
      else panic := by
  rw [Release.Seq.updateSubUsize_eq (by omega) (by omega) ho hi]
  split
  · exact Release.Seq.updateSub_ok ‹_›
  · exact Release.Seq.updateSub_panic ‹_›

/-- **C101.**  `update_sub` in the two builds: the only difference is length 0. -/
theorem C101_update_sub_builds (v x : List α) (so si len : Nat) (hv : v.length < 2 ^ 63) (hx : x.length < 2 ^ 63)
    (ho : so < 2 ^ 64) (hi : si < 2 ^ 64) :
    Release.Seq.updateSubUsize v so x si len = Seq.updateSub v so x si len ↔
      len ≠ 0 ∨ so ≤ v.length ∧ si ≤ x.length := by
  rw [C101_update_sub v x so si len hv hx ho hi]
  by_cases h : so + len ≤ v.length ∧ si + len ≤ x.length
  · rw [if_pos (.inr h), Seq.updateSub_ok h.1 h.2]
    exact ⟨fun _ => .inr (by omega), fun _ => rfl⟩
  · rw [Seq.updateSub_panic h]
    by_cases hl : len = 0
    · subst hl
      rw [if_pos (.inl rfl)]
      exact ⟨fun h' => by simp at h', fun h' => absurd h' (by omega)⟩
    · rw [if_neg (by omega)]
      exact ⟨fun _ => .inl hl, fun _ => rfl⟩

example : Release.Seq.updateSubUsize [1, 2] 7 [3] 0 0 = .ok [1, 2] ∧ Seq.updateSub [1, 2] 7 [3] 0 0 = panic := by
  decide
example : Release.Seq.updateSubUsize [1, 2] 1 [3] 0 2 = panic := by decide

/-- **C101.**  `sub` in a release build. -/
theorem C101_sub (v : List α) (s len : Nat) :
    Release.Seq.sub v s len = if len = 0 ∨ s + len ≤ v.length then .ok ((v.drop s).take len) else panic := by
  split
  · exact Release.Seq.fromSub_ok ‹_›
  · exact Release.Seq.fromSub_panic ‹_›

/-- **C101.**  `subr` with a range that runs backwards panics in both builds: the length wraps to more than the memory
holds. -/
theorem C101_subr (v : List α) (a b : Nat) (hv : v.length < 2 ^ 63) (ha : a < 2 ^ 64) :
    Release.Seq.subr v a b = if a = b ∨ a ≤ b ∧ b ≤ v.length then .ok ((v.drop a).take (b - a)) else panic := by
  rw [Release.Seq.subr, C101_sub, Release.usizeSub]
  by_cases h : a ≤ b
  · rw [if_pos h]
    exact if_congr (by omega) rfl rfl
  · rw [if_neg h, if_neg (by omega), if_neg (by omega)]

example : Release.Seq.subr [1, 2, 3] 9 9 = .ok [] ∧ Seq.subr [1, 2, 3] 9 9 = panic ∧
    Release.Seq.subr [1, 2, 3] 2 1 = panic := by
  refine ⟨by decide, by decide, ?_⟩
  rw [C101_subr _ _ _ (by simp) (by decide)]
  decide

omit [Inhabited α] in
/-- **C101.**  `num_chunks` in a release build: the sum of the length and the chunk size wraps. -/
theorem C101_num_chunks (v : List α) (cs : Nat) (hv : v.length < 2 ^ 63) (hc : cs < 2 ^ 64) (h0 : 0 < cs) :
    Release.Seq.numChunks v cs =
      .ok (if v.length + cs ≤ 2 ^ 64 then (v.length + cs - 1) / cs else 0) := by
  rw [Release.Seq.numChunks, require_true (by omega), bind_ok, Release.usize, Release.usizeSub]
  congr 1
  by_cases h : v.length + cs < 2 ^ 64
  · rw [Nat.mod_eq_of_lt h, if_pos (by omega), if_pos (by omega)]
  · by_cases h' : v.length + cs = 2 ^ 64
    · rw [h', Nat.mod_self, if_neg (by omega), if_pos (by omega)]
    · rw [Nat.mod_eq_sub_mod (by omega), Nat.mod_eq_of_lt (by omega), if_pos (by omega), if_neg (by omega)]
      exact Nat.div_eq_of_lt (by omega)

/-- **C101 (refutation).**  For every vector with at least two elements there is a chunk size for which the release build
says that there are no chunks (there is one; the debug build panics). -/
theorem C101_num_chunks_refuted (v : List α) (hv : v.length < 2 ^ 63) (h2 : 2 ≤ v.length) :
    Release.Seq.numChunks v (2 ^ 64 - 1) = .ok 0 ∧ Seq.numChunks v (2 ^ 64 - 1) = panic ∧
      (v.length + (2 ^ 64 - 1) - 1) / (2 ^ 64 - 1) = 1 := by
  refine ⟨?_, ?_, ?_⟩
  · rw [C101_num_chunks v _ hv (by decide) (by decide), if_neg (by omega)]
  · rw [Seq.numChunks, require_false (by omega)]; rfl
  · omega

/-- **C101.**  `get_chunk` in a release build: the start of the chunk is computed modulo `2^64`. -/
theorem C101_get_chunk (v : List α) (cs cn : Nat) (hv : v.length < 2 ^ 63) (hc : cs < 2 ^ 64) :
    Release.Seq.getChunk v cs cn =
      if cs * cn % 2 ^ 64 ≤ v.length ∧ cs * cn % 2 ^ 64 + cs < 2 ^ 64 then
        .ok (min cs (v.length - cs * cn % 2 ^ 64), (v.drop (cs * cn % 2 ^ 64)).take cs)
      else panic := Release.Seq.getChunk_eq hv hc

/-- **C101 (refutation).**  Asked for the third chunk of size `2^63`, the release build returns the first one: the whole
vector. -/
theorem C101_get_chunk_refuted (v : List α) (hv : v.length < 2 ^ 63) :
    Release.Seq.getChunk v (2 ^ 63) 2 = .ok (v.length, v) ∧ Seq.getChunk v (2 ^ 63) 2 = panic := by
  constructor
  · rw [C101_get_chunk v _ _ hv (by decide), show 2 ^ 63 * 2 % 2 ^ 64 = 0 from by decide, if_pos (by omega),
      List.drop_zero, List.take_of_length_le (by omega), Nat.sub_zero, Nat.min_eq_right (by omega)]
  · rw [Seq.getChunk, Seq.getChunkLen, if_pos (by omega), require_false (by omega)]; rfl

/-- **C101.**  `set_chunk` in a release build: a longer input is cut, a shorter one panics. -/
theorem C101_set_chunk (v x : List α) (cs cn : Nat) (hv : v.length < 2 ^ 63) (hc : cs < 2 ^ 64) :
    Release.Seq.setChunk v cs cn x =
      if cs * cn % 2 ^ 64 ≤ v.length ∧ cs * cn % 2 ^ 64 + cs < 2 ^ 64 ∧
          min cs (v.length - cs * cn % 2 ^ 64) ≤ x.length then
        .ok (v.take (cs * cn % 2 ^ 64) ++ x.take (min cs (v.length - cs * cn % 2 ^ 64)) ++
          v.drop (cs * cn % 2 ^ 64 + min cs (v.length - cs * cn % 2 ^ 64)))
      else panic := Release.Seq.setChunk_eq hv hc

example : Release.Seq.setChunk [1, 2, 3] 2 1 [8, 9] = .ok [1, 2, 8] ∧ Seq.setChunk [1, 2, 3] 2 1 [8, 9] = panic := by
  decide

/-- **C101.**  The conversions into arrays of a fixed length in a release build: an input that is too short is
filled up with zeros, one that is too long panics. -/
theorem C101_arr_from_vec (l : Nat) (x : List α) :
    Release.Seq.arrFromVec l x =
      (if x.length ≤ l then .ok (x ++ List.replicate (l - x.length) default) else panic) ∧
    Release.Seq.arrFromSeq l x = Release.Seq.arrFromVec l x ∧
    Release.Seq.arrFromSlice l x = Release.Seq.arrFromVec l x ∧
    Release.Seq.arrFromSlice l x = Seq.arrFromSlice l x := by
  refine ⟨?_, rfl, rfl, ?_⟩
  · split
    · exact Release.Seq.arrFromVec_ok ‹_›
    · exact Release.Seq.arrFromVec_panic (by omega)
  · by_cases h : x.length ≤ l
    · rw [Seq.arrFromSlice, require_true h]; rfl
    · rw [Seq.arrFromSlice, require_false h]
      exact Release.Seq.arrFromVec_panic (by omega)

theorem C101_arr_from_sub (l : Nat) (v : List α) (s len : Nat) :
    Release.Seq.arrFromSub l v s len =
      if len = 0 ∨ len ≤ l ∧ s + len ≤ v.length then .ok ((v.drop s).take len ++ List.replicate (l - len) default)
      else panic := by
  split
  · exact Release.Seq.arrFromSub_ok ‹_›
  · exact Release.Seq.arrFromSub_panic ‹_›

/-- A key of 3 bytes becomes a key of 4 bytes; the debug build panics. -/
example : Release.Seq.arrFromVec 4 [1, 2, 3] = .ok [1, 2, 3, 0] ∧ Seq.arrFromVec 4 [1, 2, 3] = panic ∧
    Release.Seq.arrFromVec 2 [1, 2, 3] = panic := by decide

end

/-- **C101.**  `from_hex` of an array in a release build: a longer string is cut, a shorter one panics. -/
theorem C101_arr_from_hex (l : Nat) (s v : List U8) (h : Hex.hexStringToBytes s = .ok v) :
    Release.Seq.arrFromHex l s = if l ≤ v.length then .ok (v.take l) else panic := by
  rw [Release.Seq.arrFromHex, h, bind_ok]
  have e : loop l (Seq.copyStep v) (Seq.new l) = Release.Seq.updateSub (Seq.new l) 0 v 0 l := by
    simp only [Release.Seq.updateSub, Nat.zero_add]; rfl
  rw [e]
  split
  · rw [Release.Seq.updateSub_ok (by simp [Seq.new]; omega)]
    simp [Seq.new]
  · rw [Release.Seq.updateSub_panic (by omega)]

/-- `"0102"` into an array of one byte. -/
example : Release.Seq.arrFromHex 1 [0x30, 0x31, 0x30, 0x32] = .ok [1] ∧
    Hex.arrFromHex 1 [0x30, 0x31, 0x30, 0x32] = panic := by decide

/-! ## C102: arguments that only the release build accepts -/

/-- **C102.**  HKDF-Expand of RFC 5869 for *all* lengths that the RFC allows: the assertion of the debug build, which
excludes the 32 largest ones (C34), is gone. -/
theorem C102_hkdf_expand (H : List U8 → List U8) (hH : ∀ x, x.length < 2 ^ 61 → Sha2.hash x = .ok (H x))
    (prk info : List U8) (l : Nat) (hk : prk.length < 2 ^ 61) (hi : 97 + info.length < 2 ^ 61) (hl : l ≤ 255 * 32) :
    Release.Hkdf.expand prk info l = .ok (hkdfExpand H prk info l) := Release.Hkdf.expand_ok ⟨hH⟩ hk hi hl

/-- **C102.**  Beyond the limit of the RFC the release build panics as well, although the number of blocks is cut to 8
bits: the output buffer is too short. -/
theorem C102_hkdf_expand_limit (prk info : List U8) (l : Nat) (hk : prk.length < 2 ^ 61) (hi : 97 + info.length < 2 ^ 61) :
    Release.Hkdf.expand prk info l = panic ↔ 255 * 32 < l := by
  constructor
  · intro h
    by_contra hl
    rw [C102_hkdf_expand usedHash usedHash_hash.hash prk info l hk hi (by omega)] at h
    simp at h
  · exact fun hl => Release.Hkdf.expand_panic usedHash_hash hk hi hl

example : Release.Hkdf.expand [1] [2] 8160 = .ok (hkdfExpand usedHash [1] [2] 8160) ∧
    Hkdf.expand [1] [2] 8160 = panic :=
  ⟨C102_hkdf_expand usedHash usedHash_hash.hash _ _ _ (by decide) (by decide) (by decide),
    C34_expand_limit_refuted _ _ _ (by decide)⟩

example : Release.Hkdf.expand [1] [2] (256 * 32 + 1) = panic :=
  (C102_hkdf_expand_limit _ _ _ (by decide) (by decide)).mpr (by decide)

/-- **C102.**  SHA-256 of messages beyond the limit of the standard that are not whole blocks: the debug build panics
(the length in bits overflows), the release build uses the length modulo `2^64`. -/
theorem C102_sha256_long (m : List U8) (h : m.length % 64 ≠ 0) (hu : m.length < 2 ^ 63) :
    Release.Sha2.hash m = .ok (Sha256.sha256 m) ∧ (2 ^ 61 ≤ m.length → Sha2.hash m = panic) :=
  ⟨Release.Sha2.hash_ok h hu, fun hn => Sha2.hash_too_long h hn hu⟩

example : Release.Sha2.hash (List.replicate (2 ^ 61 + 1) 0) = .ok (Sha256.sha256 (List.replicate (2 ^ 61 + 1) 0)) ∧
    Sha2.hash (List.replicate (2 ^ 61 + 1) 0) = panic := by
  have hl : (List.replicate (2 ^ 61 + 1) (0 : U8)).length = 2 ^ 61 + 1 := List.length_replicate ..
  obtain ⟨a, b⟩ := C102_sha256_long (List.replicate (2 ^ 61 + 1) 0) (by rw [hl]; decide) (by rw [hl]; decide)
  exact ⟨a, b (by rw [hl]; decide)⟩

end Hacspec.Props
