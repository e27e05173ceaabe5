import Verif.Props.Aess
import Verif.Props.ChaChas

/-! # C77: message length limits of the counter modes -/

namespace Hacspec.Props

open SecretInt Spec Hacspec.Seq
open Hacspec.Aes (Variant)

theorem xor_xor_cancel (a b k : U8) : (a ^^^ k) ^^^ (b ^^^ k) = a ^^^ b := by
  rw [BitVec.xor_comm b k, BitVec.xor_assoc, ← BitVec.xor_assoc k k b, BitVec.xor_self, BitVec.zero_xor]

theorem getD_map_xor {l c : List U8} {j : Nat} {k : U8} (h : c[j]? = l[j]?.map (· ^^^ k)) (hj : j < l.length) :
    c.getD j 0 = l.getD j 0 ^^^ k := by
  rw [List.getD_eq_getElem?_getD, h, List.getD_eq_getElem?_getD, List.getElem?_eq_getElem hj]; rfl

/-- Message block plus ciphertext block is key stream block. -/
theorem xor_block {m c s : List U8} {n i : Nat} (k : Nat → U8) (hc : ∀ j, c[j]? = m[j]?.map (· ^^^ k j))
    (hs : s.length = n) (hk : ∀ j, j < n → k (n * i + j) = s.getD j 0) (hi : n * i + n ≤ m.length) :
    Spec.xor (block n m i) (block n c i) = s := by
  apply List.ext_getElem?
  intro j
  rw [Spec.xor, List.getElem?_zipWith, block, block, List.getElem?_take, List.getElem?_take]
  by_cases hj : j < n
  · rw [if_pos hj, if_pos hj, List.getElem?_drop, List.getElem?_drop, hc, List.getElem?_eq_getElem (by omega), hk j hj]
    simp only [Option.map_some]
    rw [← BitVec.xor_assoc, BitVec.xor_self, BitVec.zero_xor, List.getD_eq_getElem?_getD, List.getElem?_eq_getElem (by omega)]
    rfl
  · rw [if_neg hj, if_neg hj, List.getElem?_eq_none (l := s) (by omega)]

theorem aes_block {alg : Variant} {key nonce m : List U8} {c : U32} (hk : key.length = 4 * Hacspec.Aes.nk alg) {i : Nat}
    (hi : 16 * i + 16 ≤ m.length) :
    Spec.xor (block 16 m i) (block 16 (Spec.Aes.ctr (Hacspec.Aes.nk alg) (Hacspec.Aes.nr alg) key nonce c m) i) =
      Spec.Aes.ctrBlock (Hacspec.Aes.nk alg) (Hacspec.Aes.nr alg) key nonce (c + BitVec.ofNat 32 i) := by
  refine xor_block _ (fun j => ctr_getElem? hk j) (Hacspec.Aes.length_ctrBlock _ _ hk) (fun j hj => ?_) hi
  rw [aesStream, show (16 * i + j) / 16 = i by omega, show (16 * i + j) % 16 = j by omega]; rfl

theorem chacha_block {key iv m : List U8} {c : U32} (hk : key.length = 32) (hv : iv.length = 12) {i : Nat}
    (hi : 64 * i + 64 ≤ m.length) :
    Spec.xor (block 64 m i) (block 64 (ChaCha.encrypt key c iv m) i) = ChaCha.blockFn key (c + BitVec.ofNat 32 i) iv := by
  refine xor_block _ (fun j => encrypt_getElem? hk hv j) (Hacspec.ChaCha.length_blockFn _ hk hv) (fun j hj => ?_) hi
  rw [keyStream, show (64 * i + j) / 64 = i by omega, show (64 * i + j) % 64 = j by omega]

theorem ofNat_add_period (i : Nat) : BitVec.ofNat 32 (i + 2 ^ 32) = BitVec.ofNat 32 i := by
  apply BitVec.eq_of_toNat_eq
  rw [BitVec.toNat_ofNat, BitVec.toNat_ofNat, Nat.add_mod_right]

/-! ## AES-GCM -/

/-- **C77, refuted** for AES-GCM: messages beyond the limit of SP 800-38D (`2^36 - 32` bytes) are not rejected, and bytes at
distance `2^36` are encrypted with the same key stream byte. -/
theorem C77_gcm_repeats_refuted (alg : Variant) (key iv aad m : List U8) (hk : key.length = 4 * Hacspec.Aes.nk alg)
    (hi : iv.length = 12) (hm : m.length < 2 ^ 63) :
    ∃ c t, Hacspec.AesGcm.encryptKey key iv aad m alg = .ok (c, t) ∧
      ∀ j, j + 2 ^ 36 < m.length → c.getD j 0 ^^^ c.getD (j + 2 ^ 36) 0 = m.getD j 0 ^^^ m.getD (j + 2 ^ 36) 0 := by
  refine ⟨_, _, C45_encrypt alg key iv aad m hk hi hm, fun j hj => ?_⟩
  rw [getD_map_xor (ctr_getElem? hk j) (by omega), getD_map_xor (ctr_getElem? hk (j + 2 ^ 36)) hj,
    show aesStream (Hacspec.Aes.nk alg) (Hacspec.Aes.nr alg) key iv 2 (j + 2 ^ 36) =
      aesStream (Hacspec.Aes.nk alg) (Hacspec.Aes.nr alg) key iv 2 j by
        rw [aesStream, aesStream, show (j + 2 ^ 36) / 16 = j / 16 + 2 ^ 32 by omega,
          show (j + 2 ^ 36) % 16 = j % 16 by omega, ofNat_add_period], xor_xor_cancel]

example := C77_gcm_repeats_refuted .aes128 (List.replicate 16 1) (List.replicate 12 2) [] (List.replicate (2 ^ 36 + 5) 3)
  (by simp [Hacspec.Aes.nk]) (by simp) (by rw [List.length_replicate]; decide)

/-- **C77, refuted** for AES-GCM: a message of at least `2^36` bytes reveals, to anyone who knows it and its ciphertext, the
block that masks the tag of every message under the same key and nonce. -/
theorem C77_gcm_tag_mask_refuted (alg : Variant) (key iv aad m : List U8) (hk : key.length = 4 * Hacspec.Aes.nk alg)
    (hi : iv.length = 12) (hm : m.length < 2 ^ 63) (hl : 2 ^ 36 ≤ m.length) :
    ∃ c t, Hacspec.AesGcm.encryptKey key iv aad m alg = .ok (c, t) ∧
      ∀ aad' m' c' t' p h g, m'.length < 2 ^ 63 → Hacspec.AesGcm.encryptKey key iv aad' m' alg = .ok (c', t') →
        Hacspec.AesGcm.padAadMsg aad' c' = .ok p →
        Hacspec.Aes.encryptBlock key (List.replicate 16 0) (Hacspec.Aes.nk alg) (Hacspec.Aes.nr alg) alg = .ok h →
        Gf128.gmac p h = .ok g →
        t' = Spec.xor g (Spec.xor (block 16 m (2 ^ 32 - 1)) (block 16 c (2 ^ 32 - 1))) := by
  refine ⟨_, _, C45_encrypt alg key iv aad m hk hi hm, ?_⟩
  intro aad' m' c' t' p h g hm' he hp hh hg
  rw [aes_block hk (by omega)]
  rw [C45_encrypt alg key iv aad' m' hk hi hm'] at he
  injection he with he
  injection he with hc ht
  rw [Hacspec.AesGcm.padAadMsg_ok] at hp
  injection hp with hp
  rw [C42_cipher alg key _ hk (by simp)] at hh
  injection hh with hh
  have hhl : h.length = 16 := by rw [← hh]; exact Hacspec.Aes.length_cipher _ hk
  rw [C44_gmac _ _ hhl] at hg
  injection hg with hg
  rw [← ht, ← hg, ← hp, ← hc, ← hh, Gcm.tag]
  rfl

example := C77_gcm_tag_mask_refuted .aes256 (List.replicate 32 1) (List.replicate 12 2) [] (List.replicate (2 ^ 36) 3)
  (by simp [Hacspec.Aes.nk]) (by simp) (by rw [List.length_replicate]; decide) (by rw [List.length_replicate])

theorem be32_inj {x y : U32} (h : bytesBe32 x = bytesBe32 y) : x = y := by
  have hx : ∀ x : U32, (bytesBe32 x).foldl (fun a b => 256 * a + b.toNat) 0 = x.toNat := by
    intro x
    simp only [bytesBe32, List.foldl_cons, List.foldl_nil, BitVec.extractLsb'_toNat, Nat.shiftRight_eq_div_pow]
    have := x.isLt
    omega
  have e := congrArg (List.foldl (fun (a : Nat) (b : BitVec 8) => 256 * a + b.toNat) 0) h
  rw [hx, hx] at e
  exact BitVec.eq_of_toNat_eq e

theorem ctrBlock_inj {alg : Variant} {key nonce : List U8} (hk : key.length = 4 * Hacspec.Aes.nk alg)
    (hn : nonce.length = 12) {c d : U32}
    (h : Spec.Aes.ctrBlock (Hacspec.Aes.nk alg) (Hacspec.Aes.nr alg) key nonce c =
      Spec.Aes.ctrBlock (Hacspec.Aes.nk alg) (Hacspec.Aes.nr alg) key nonce d) : c = d := by
  have hl : ∀ c : U32, (nonce ++ bytesBe32 c).length = 16 := fun c => by rw [List.length_append, hn]; rfl
  have := congrArg (Spec.Aes.invCipher (Hacspec.Aes.nk alg) (Hacspec.Aes.nr alg) key) h
  rw [Spec.Aes.ctrBlock, Spec.Aes.ctrBlock, Hacspec.Aes.invCipher_cipher hk (hl c),
    Hacspec.Aes.invCipher_cipher hk (hl d)] at this
  exact be32_inj (List.append_cancel_left this)

/-- **C77 (partial).**  Within the limit of SP 800-38D the blocks of the key stream (message plus ciphertext) are pairwise
different, and none of them is the tag mask (`E(nonce || 1)`). -/
theorem C77_gcm_distinct_partial (alg : Variant) (key iv aad m : List U8) (hk : key.length = 4 * Hacspec.Aes.nk alg)
    (hi : iv.length = 12) (hm : m.length ≤ 2 ^ 36 - 32) :
    ∃ c t mask, Hacspec.AesGcm.encryptKey key iv aad m alg = .ok (c, t) ∧
      Hacspec.Aes.encryptBlock key (iv ++ [0, 0, 0, 1]) (Hacspec.Aes.nk alg) (Hacspec.Aes.nr alg) alg = .ok mask ∧
      (∀ i j, i < j → 16 * (j + 1) ≤ m.length →
        Spec.xor (block 16 m i) (block 16 c i) ≠ Spec.xor (block 16 m j) (block 16 c j)) ∧
      ∀ i, 16 * (i + 1) ≤ m.length → Spec.xor (block 16 m i) (block 16 c i) ≠ mask := by
  refine ⟨_, _, Spec.Aes.ctrBlock (Hacspec.Aes.nk alg) (Hacspec.Aes.nr alg) key iv 1,
    C45_encrypt alg key iv aad m hk hi (by omega), C42_cipher alg key _ hk (by simp [hi]), ?_, ?_⟩
  · intro i j hij hj e
    rw [aes_block hk (by omega), aes_block hk (by omega)] at e
    have := congrArg BitVec.toNat (ctrBlock_inj hk hi e)
    simp only [BitVec.toNat_add, BitVec.toNat_ofNat, show BitVec.toNat (2 : U32) = 2 from rfl,
      show BitVec.toNat (1 : U32) = 1 from rfl] at this
    omega
  · intro i hj e
    rw [aes_block hk (by omega)] at e
    have := congrArg BitVec.toNat (ctrBlock_inj hk hi e)
    simp only [BitVec.toNat_add, BitVec.toNat_ofNat, show BitVec.toNat (2 : U32) = 2 from rfl,
      show BitVec.toNat (1 : U32) = 1 from rfl] at this
    omega

example := C77_gcm_distinct_partial .aes128 (List.replicate 16 1) (List.replicate 12 2) [] (List.replicate 100 3)
  (by simp [Hacspec.Aes.nk]) (by simp) (by simp)

/-! ## ChaCha20-Poly1305 -/

/-- **C77, refuted** for ChaCha20-Poly1305: messages beyond the limit of RFC 8439 (`2^38 - 64` bytes) are not rejected, and
bytes at distance `2^38` are encrypted with the same key stream byte. -/
theorem C77_chacha_repeats_refuted (key iv aad m : List U8) (hk : key.length = 32) (hi : iv.length = 12)
    (hm : m.length < 2 ^ 63) :
    ∃ c t, Hacspec.ChaChaPoly.encrypt key iv aad m = .ok (c, t) ∧
      ∀ j, j + 2 ^ 38 < m.length → c.getD j 0 ^^^ c.getD (j + 2 ^ 38) 0 = m.getD j 0 ^^^ m.getD (j + 2 ^ 38) 0 := by
  refine ⟨_, _, C39_encrypt key iv aad m hk hi hm, fun j hj => ?_⟩
  rw [getD_map_xor (encrypt_getElem? hk hi j) (by omega), getD_map_xor (encrypt_getElem? hk hi (j + 2 ^ 38)) hj,
    show keyStream key 1 iv (j + 2 ^ 38) = keyStream key 1 iv j by
      rw [keyStream, keyStream, show (j + 2 ^ 38) / 64 = j / 64 + 2 ^ 32 by omega,
        show (j + 2 ^ 38) % 64 = j % 64 by omega, ofNat_add_period], xor_xor_cancel]

example := C77_chacha_repeats_refuted (List.replicate 32 1) (List.replicate 12 2) [] (List.replicate (2 ^ 38 + 5) 3)
  (by simp) (by simp) (by rw [List.length_replicate]; decide)

/-- **C77, refuted** for ChaCha20-Poly1305: a message of at least `2^38` bytes and its ciphertext contain the one-time key:
with it anyone can compute a tag that `decrypt` accepts for any associated data and any ciphertext. -/
theorem C77_chacha_forgery_refuted (key iv aad m : List U8) (hk : key.length = 32) (hi : iv.length = 12)
    (hm : m.length < 2 ^ 63) (hl : 2 ^ 38 ≤ m.length) :
    ∃ c t, Hacspec.ChaChaPoly.encrypt key iv aad m = .ok (c, t) ∧
      ∀ aad' c', c'.length < 2 ^ 63 → ∃ p tag m', Hacspec.ChaChaPoly.padAadMsg aad' c' = .ok p ∧
        Hacspec.Poly1305.poly p
          ((Spec.xor (block 64 m (2 ^ 32 - 1)) (block 64 c (2 ^ 32 - 1))).take 32) = .ok tag ∧
        Hacspec.ChaChaPoly.decrypt key iv aad' c' tag = .ok (some m') := by
  refine ⟨_, _, C39_encrypt key iv aad m hk hi hm, fun aad' c' hc' => ?_⟩
  have hb := Hacspec.ChaCha.length_blockFn 0 hk hi
  rw [chacha_block hk hi (by omega), show (1 : U32) + BitVec.ofNat 32 (2 ^ 32 - 1) = 0 by decide]
  refine ⟨_, aeadTag key iv aad' c', ChaCha.encrypt key 1 iv c', Hacspec.ChaChaPoly.padAadMsg_ok _ _, ?_, ?_⟩
  · exact C38_poly _ _ (by rw [List.length_take, hb]; rfl)
  · rw [C39_decrypt _ _ _ _ _ hk hi hc', if_pos rfl]

example := C77_chacha_forgery_refuted (List.replicate 32 1) (List.replicate 12 2) [] (List.replicate (2 ^ 38) 3)
  (by simp) (by simp) (by rw [List.length_replicate]; decide) (by rw [List.length_replicate])

/-! ## Piecewise encryption -/

/-- **C77.**  Counter mode can be used piecewise at block boundaries, the counter advancing by the number of blocks. -/
theorem C77_ctr_append (alg : Variant) (key nonce m x : List U8) (c : U32) (hk : key.length = 4 * Hacspec.Aes.nk alg)
    (hn : nonce.length = 12) (hl : (m ++ x).length < 2 ^ 63) (hm : m.length % 16 = 0) :
    ∃ a b, Hacspec.Aes.encryptKey key nonce c m alg = .ok a ∧
      Hacspec.Aes.encryptKey key nonce (c + BitVec.ofNat 32 (m.length / 16)) x alg = .ok b ∧
      Hacspec.Aes.encryptKey key nonce c (m ++ x) alg = .ok (a ++ b) := by
  have hla := ctr_length (m := m) (nonce := nonce) (c := c) hk
  have hll := hl
  rw [List.length_append] at hl
  refine ⟨_, _, encryptKey_ok hk hn (by omega), encryptKey_ok hk hn (by omega), ?_⟩
  rw [encryptKey_ok hk hn hll]
  congr 1
  apply List.ext_getElem?
  intro j
  rw [ctr_getElem? hk]
  by_cases hj : j < m.length
  · rw [List.getElem?_append_left hj, List.getElem?_append_left (by omega), ctr_getElem? hk]
  · rw [List.getElem?_append_right (by omega), List.getElem?_append_right (by omega), ctr_getElem? hk, hla]
    congr 2
    funext b
    congr 1
    rw [aesStream, aesStream, BitVec.add_assoc, ← BitVec.ofNat_add,
      show m.length / 16 + (j - m.length) / 16 = j / 16 by omega, show (j - m.length) % 16 = j % 16 by omega]

example := C77_ctr_append .aes128 (List.replicate 16 1) (List.replicate 12 2) (List.replicate 32 3) [1, 2, 3] 0xffffffff
  (by simp [Hacspec.Aes.nk]) (by simp) (by simp) (by simp)

end Hacspec.Props
