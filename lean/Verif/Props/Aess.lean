import Verif.Lemmas.Gcm
import Verif.Spec.Perm

/-! # C41–C45 and C40: AES, counter mode, GHASH and AES-GCM -/

namespace Hacspec.Props

open SecretInt Spec Hacspec.Seq Polynomial
open Hacspec.Aes (Variant)

/-! ## C41 -/

/-- **C41.**  The S-box is the affine map of the inverse in GF(2^8), for every byte. -/
theorem C41_sbox (x : U8) : ∃ y, Spec.Aes.IsInv x y ∧ Hacspec.Aes.subByte x = .ok (Spec.Aes.affine y) :=
  ⟨Spec.Aes.inv x, Hacspec.Aes.inv_isInv x, Hacspec.Aes.subByte_ok x⟩

/-- **C41.**  The four transformations are those of FIPS 197, for every state. -/
theorem C41_sub_bytes (s : List U8) (hs : s.length = 16) : Hacspec.Aes.subBytes s = .ok (Spec.Aes.subBytes s) :=
  Hacspec.Aes.subBytes_ok hs

theorem C41_shift_rows (s : List U8) (hs : s.length = 16) : Hacspec.Aes.shiftRows s = .ok (Spec.Aes.shiftRows s) :=
  Hacspec.Aes.shiftRows_ok hs

theorem C41_mix_columns (s : List U8) (hs : s.length = 16) : Hacspec.Aes.mixColumns s = .ok (Spec.Aes.mixColumns s) :=
  Hacspec.Aes.mixColumns_ok hs

theorem C41_add_round_key (s k : List U8) (hs : s.length = 16) (hk : k.length = 16) :
    Hacspec.Aes.addRoundKey s k = .ok (Spec.xor s k) := Hacspec.Aes.addRoundKey_ok hs hk

theorem C41_xtime (x : U8) : Hacspec.Aes.xtime x = .ok (Spec.Aes.gmul 2 x) := Hacspec.Aes.xtime_ok x

/-- FIPS 197, Appendix B, round 1. -/
example :
    let s : List U8 := [0x19, 0x3d, 0xe3, 0xbe, 0xa0, 0xf4, 0xe2, 0x2b, 0x9a, 0xc6, 0x8d, 0x2a, 0xe9, 0xf8, 0x48, 0x08]
    Spec.Aes.mixColumns (Spec.Aes.shiftRows (Spec.Aes.subBytes s)) =
      [0x04, 0x66, 0x81, 0xe5, 0xe0, 0xcb, 0x19, 0x9a, 0x48, 0xf8, 0xd3, 0x7a, 0x28, 0x06, 0x26, 0x4c] := by
  decide +kernel

/-! ## C42 -/

/-- **C42.**  Block encryption is the FIPS-197 Cipher under the FIPS-197 key expansion, for both variants, all keys and all
blocks. -/
theorem C42_cipher (alg : Variant) (key s : List U8) (hk : key.length = 4 * Hacspec.Aes.nk alg) (hs : s.length = 16) :
    Hacspec.Aes.encryptBlock key s (Hacspec.Aes.nk alg) (Hacspec.Aes.nr alg) alg =
      .ok (Spec.Aes.cipher (Hacspec.Aes.nk alg) (Hacspec.Aes.nr alg) key s) := Hacspec.Aes.encryptBlock_ok hk hs

/-- **C42.**  The two entry points, with the parameters of FIPS 197 written out. -/
theorem C42_aes128 (key s : List U8) (hk : key.length = 16) (hs : s.length = 16) :
    Hacspec.Aes.aes128EncryptBlock key s 4 10 = .ok (Spec.Aes.cipher 4 10 key s) := by
  rw [Hacspec.Aes.aes128EncryptBlock, fromSeq_ok, bind_ok]
  exact C42_cipher .aes128 key s hk hs

theorem C42_aes256 (key s : List U8) (hk : key.length = 32) (hs : s.length = 16) :
    Hacspec.Aes.aes256EncryptBlock key s 8 14 = .ok (Spec.Aes.cipher 8 14 key s) := by
  rw [Hacspec.Aes.aes256EncryptBlock, fromSeq_ok, bind_ok]
  exact C42_cipher .aes256 key s hk hs

/-- FIPS 197, Appendix C.1. -/
example : Hacspec.Aes.aes128EncryptBlock ((List.range 16).map (BitVec.ofNat 8))
    [0x00, 0x11, 0x22, 0x33, 0x44, 0x55, 0x66, 0x77, 0x88, 0x99, 0xaa, 0xbb, 0xcc, 0xdd, 0xee, 0xff] 4 10 =
    .ok [0x69, 0xc4, 0xe0, 0xd8, 0x6a, 0x7b, 0x04, 0x30, 0xd8, 0xcd, 0xb7, 0x80, 0x70, 0xb4, 0xc5, 0x5a] := by
  decide +kernel

/-- **C42.**  The key expansion is the one of FIPS 197. -/
theorem C42_key_expansion (alg : Variant) (key : List U8) (hk : key.length = 4 * Hacspec.Aes.nk alg) :
    Hacspec.Aes.keyExpansion key (Hacspec.Aes.nk alg) (Hacspec.Aes.nr alg) alg =
      .ok (Spec.Aes.schedule (Hacspec.Aes.nk alg) (Hacspec.Aes.nr alg) key).flatten := Hacspec.Aes.keyExpansion_ok hk

/-- **C42.**  For a fixed key, block encryption is undone by the FIPS-197 InvCipher on both sides. -/
theorem C42_inverse (alg : Variant) (key s : List U8) (hk : key.length = 4 * Hacspec.Aes.nk alg) (hs : s.length = 16) :
    (∃ c, Hacspec.Aes.encryptBlock key s (Hacspec.Aes.nk alg) (Hacspec.Aes.nr alg) alg = .ok c ∧
      Spec.Aes.invCipher (Hacspec.Aes.nk alg) (Hacspec.Aes.nr alg) key c = s) ∧
    Hacspec.Aes.encryptBlock key (Spec.Aes.invCipher (Hacspec.Aes.nk alg) (Hacspec.Aes.nr alg) key s)
      (Hacspec.Aes.nk alg) (Hacspec.Aes.nr alg) alg = .ok s := by
  refine ⟨⟨_, C42_cipher alg key s hk hs, Hacspec.Aes.invCipher_cipher hk hs⟩, ?_⟩
  rw [C42_cipher alg key _ hk (Hacspec.Aes.length_invCipher s hk), Hacspec.Aes.cipher_invCipher hk hs]

/-- **C42.**  For a fixed key, block encryption is a permutation of the blocks. -/
theorem C42_permutation (alg : Variant) (key : List U8) (hk : key.length = 4 * Hacspec.Aes.nk alg) :
    Permutes 16 (fun s => Hacspec.Aes.encryptBlock key s (Hacspec.Aes.nk alg) (Hacspec.Aes.nr alg) alg) := by
  refine ⟨fun s hs => ⟨_, C42_cipher alg key s hk hs, Hacspec.Aes.length_cipher s hk⟩, fun t ht =>
    ⟨_, Hacspec.Aes.length_invCipher t hk, (C42_inverse alg key t hk ht).2, fun s' hs' h => ?_⟩⟩
  obtain ⟨c, h1, h2⟩ := (C42_inverse alg key s' hk hs').1
  simp only [h1] at h
  injection h with h
  rw [← h2, h]

example : Permutes 16 (fun s => Hacspec.Aes.encryptBlock (List.replicate 32 7) s 8 14 .aes256) :=
  C42_permutation .aes256 (List.replicate 32 7) (by simp [Hacspec.Aes.nk])

/-! ## C43 -/

/-- Byte `j` of the AES key stream that starts with block `c`. -/
def aesStream (nk nr : Nat) (key nonce : List U8) (c : U32) (j : Nat) : U8 :=
  (Spec.Aes.cipher nk nr key (nonce ++ bytesBe32 (c + BitVec.ofNat 32 (j / 16)))).getD (j % 16) 0

theorem ctr_length {alg : Variant} {key nonce m : List U8} {c : U32} (hk : key.length = 4 * Hacspec.Aes.nk alg) :
    (Spec.Aes.ctr (Hacspec.Aes.nk alg) (Hacspec.Aes.nr alg) key nonce c m).length = m.length := by
  rw [Spec.Aes.ctr, length_flatMap_chunks (cs := 16) (len := m.length)]
  · omega
  · intro i _
    rw [Spec.xor, List.length_zipWith, Hacspec.Aes.length_ctrBlock _ _ hk, Hacspec.ChaCha.length_block]; omega
  · intro i h; omega

theorem ctr_getElem? {alg : Variant} {key nonce m : List U8} {c : U32} (hk : key.length = 4 * Hacspec.Aes.nk alg)
    (j : Nat) : (Spec.Aes.ctr (Hacspec.Aes.nk alg) (Hacspec.Aes.nr alg) key nonce c m)[j]? =
      m[j]?.map (· ^^^ aesStream (Hacspec.Aes.nk alg) (Hacspec.Aes.nr alg) key nonce c j) := by
  by_cases h : j < m.length
  · rw [Spec.Aes.ctr, flatMap_getElem? (cs := 16) (len := m.length)]
    · have hb := Hacspec.Aes.length_ctrBlock nonce (c + BitVec.ofNat 32 (j / 16)) hk
      rw [Spec.xor, List.getElem?_zipWith, Spec.block, List.getElem?_take, if_pos (by omega), List.getElem?_drop,
        show 16 * (j / 16) + j % 16 = j by omega, List.getElem?_eq_getElem h, aesStream,
        List.getD_eq_getElem?_getD, ← Spec.Aes.ctrBlock, List.getElem?_eq_getElem (show j % 16 < _ by rw [hb]; omega)]
      rfl
    · intro i _
      rw [Spec.xor, List.length_zipWith, Hacspec.Aes.length_ctrBlock _ _ hk, Hacspec.ChaCha.length_block]; omega
    · intro i h; omega
    · omega
  · rw [List.getElem?_eq_none (by rw [ctr_length hk]; omega), List.getElem?_eq_none (by omega)]; rfl

theorem ctr_ctr {alg : Variant} {key nonce m : List U8} {c : U32} (hk : key.length = 4 * Hacspec.Aes.nk alg) :
    Spec.Aes.ctr (Hacspec.Aes.nk alg) (Hacspec.Aes.nr alg) key nonce c
      (Spec.Aes.ctr (Hacspec.Aes.nk alg) (Hacspec.Aes.nr alg) key nonce c m) = m := by
  apply List.ext_getElem?
  intro j
  rw [ctr_getElem? hk, ctr_getElem? hk, Option.map_map]
  cases m[j]? with
  | none => rfl
  | some x => simp [Function.comp, BitVec.xor_assoc]

theorem encryptKey_ok {alg : Variant} {key nonce m : List U8} {c : U32} (hk : key.length = 4 * Hacspec.Aes.nk alg)
    (hn : nonce.length = 12) (hm : m.length < 2 ^ 63) :
    Hacspec.Aes.encryptKey key nonce c m alg =
      .ok (Spec.Aes.ctr (Hacspec.Aes.nk alg) (Hacspec.Aes.nr alg) key nonce c m) := by
  rw [Hacspec.Aes.encryptKey, fromSeq_ok, bind_ok, Hacspec.Aes.encrypt, Hacspec.Aes.counterMode_ok c hk hn hm]

/-- **C43.**  Encryption never fails, preserves the length, is its own inverse (decryption has the same body), and byte `j`
is the message's byte xored with byte `j % 16` of `E(nonce || ctr + j / 16)`; the counter wraps at `2^32`. -/
theorem C43_ctr (alg : Variant) (key nonce m : List U8) (c : U32) (hk : key.length = 4 * Hacspec.Aes.nk alg)
    (hn : nonce.length = 12) (hm : m.length < 2 ^ 63) :
    ∃ out, Hacspec.Aes.encryptKey key nonce c m alg = .ok out ∧ out.length = m.length ∧
      Hacspec.Aes.encryptKey key nonce c out alg = .ok m ∧
      ∀ j, j < m.length → ∃ blk,
        Hacspec.Aes.encryptBlock key (nonce ++ bytesBe32 (c + BitVec.ofNat 32 (j / 16))) (Hacspec.Aes.nk alg)
          (Hacspec.Aes.nr alg) alg = .ok blk ∧ out.getD j 0 = m.getD j 0 ^^^ blk.getD (j % 16) 0 := by
  have hl := ctr_length (m := m) (nonce := nonce) (c := c) hk
  refine ⟨_, encryptKey_ok hk hn hm, hl, ?_, fun j hj => ⟨_, C42_cipher alg key _ hk ?_, ?_⟩⟩
  · rw [encryptKey_ok hk hn (by omega), ctr_ctr hk]
  · rw [List.length_append, hn]; rfl
  · rw [List.getD_eq_getElem?_getD, ctr_getElem? hk, List.getD_eq_getElem?_getD (l := m), List.getElem?_eq_getElem hj]
    rfl

/-- The counter wraps around in the third block. -/
example := C43_ctr .aes128 (List.replicate 16 1) (List.replicate 12 2) (List.replicate 100 3) 0xfffffffe (by simp [Hacspec.Aes.nk])
  (by simp) (by simp)

example : Hacspec.Aes.encryptKey (List.replicate 16 0) (List.replicate 12 0) 2 (List.replicate 17 0) .aes128 =
    .ok [0x03, 0x88, 0xda, 0xce, 0x60, 0xb6, 0xa3, 0x92, 0xf3, 0x28, 0xc2, 0xb9, 0x71, 0xb2, 0xfe, 0x78, 0xf7] := by
  decide +kernel

/-! ## C44 -/

/-- **C44.**  `fmul` on encoded blocks is the product of the blocks' polynomials modulo `X^128 + X^7 + X^2 + X + 1`, in the
bit order of GCM; encoding and decoding are inverse to each other. -/
theorem C44_fmul (x y : List U8) (hx : x.length = 16) (hy : y.length = 16) :
    ∃ a b c z, Gf128.encode x = .ok a ∧ Gf128.encode y = .ok b ∧ Gf128.fmul a b = .ok c ∧ Gf128.decode c = .ok z ∧
      Gf128.encode z = .ok c ∧ Gf128.decode a = .ok x ∧
      z.length = 16 ∧ Gcm.blockPoly z = Gcm.blockPoly x * Gcm.blockPoly y %ₘ Gcm.P := by
  have hz : ∀ e : U128, Gf128.encode (beOfWord e) = .ok e := by
    intro e
    rw [Gf128.encode_ok (Gf128.length_be e), Gf128.wordOfBe_be]
  refine ⟨_, _, _, _, Gf128.encode_ok hx, Gf128.encode_ok hy, Gf128.fmul_ok _ _, Gf128.decode_ok _, hz _, ?_,
    Gf128.length_be _, ?_⟩
  · rw [Gf128.decode_ok, ← Gf128.polyBlock_toPoly, Gf128.toPoly_wordOfBe hx, Gf128.polyBlock_blockPoly hx]
  · rw [Gf128.blockPoly_be, Gf128.toPoly_mulF, Gf128.toPoly_wordOfBe hx, Gf128.toPoly_wordOfBe hy]

/-- **C44.**  `fadd` on encoded blocks is the sum of the polynomials. -/
theorem C44_fadd (x y : List U8) (hx : x.length = 16) (hy : y.length = 16) :
    ∃ a b z, Gf128.encode x = .ok a ∧ Gf128.encode y = .ok b ∧ Gf128.decode (Gf128.fadd a b) = .ok z ∧
      z.length = 16 ∧ Gcm.blockPoly z = Gcm.blockPoly x + Gcm.blockPoly y := by
  refine ⟨_, _, _, Gf128.encode_ok hx, Gf128.encode_ok hy, Gf128.decode_ok _, Gf128.length_be _, ?_⟩
  rw [Gf128.blockPoly_be, Gf128.fadd, Gf128.toPoly_xor, Gf128.toPoly_wordOfBe hx, Gf128.toPoly_wordOfBe hy]

/-- **C44.**  `fmul` is commutative. -/
theorem C44_mul_comm (x y : U128) : Gf128.fmul x y = Gf128.fmul y x := by
  rw [Gf128.fmul_ok, Gf128.fmul_ok]
  congr 1
  apply Gf128.φ_inj
  rw [Gf128.φ_mulF, Gf128.φ_mulF, mul_comm]

/-- **C44.**  `fmul` is associative. -/
theorem C44_mul_assoc (x y z : U128) :
    (do Gf128.fmul (← Gf128.fmul x y) z) = (do Gf128.fmul x (← Gf128.fmul y z)) := by
  simp only [Gf128.fmul_ok, bind_ok]
  congr 1
  apply Gf128.φ_inj
  rw [Gf128.φ_mulF, Gf128.φ_mulF, Gf128.φ_mulF, Gf128.φ_mulF, mul_assoc]

/-- **C44.**  `fmul` distributes over `fadd`. -/
theorem C44_distrib (x y z : U128) :
    Gf128.fmul x (Gf128.fadd y z) = (do .ok (Gf128.fadd (← Gf128.fmul x y) (← Gf128.fmul x z))) := by
  simp only [Gf128.fmul_ok, bind_ok]
  congr 1
  apply Gf128.φ_inj
  rw [Gf128.φ_mulF, Gf128.fadd, Gf128.fadd, Gf128.toPoly_xor, Gf128.toPoly_xor, map_add, map_add, Gf128.φ_mulF,
    Gf128.φ_mulF, mul_add]

/-- **C44.**  The block `80 00 ... 00` is the unit. -/
theorem C44_one (x : U128) : Gf128.fmul x (1#128 <<< 127) = .ok x := by
  rw [Gf128.fmul_ok]
  refine congrArg _ ?_
  apply Gf128.φ_inj
  rw [Gf128.φ_mulF, Gf128.toPoly_one, map_one, mul_one]

/-- **C44.**  `fadd` is a commutative group in which every element is its own inverse. -/
theorem C44_add (x y z : U128) : Gf128.fadd x y = Gf128.fadd y x ∧
    Gf128.fadd (Gf128.fadd x y) z = Gf128.fadd x (Gf128.fadd y z) ∧ Gf128.fadd x 0 = x ∧ Gf128.fadd x x = 0 :=
  ⟨BitVec.xor_comm _ _, BitVec.xor_assoc _ _ _, BitVec.xor_zero, BitVec.xor_self⟩

/-- **C44.**  `gmac` is GHASH of SP 800-38D for every text and every key block. -/
theorem C44_gmac (m k : List U8) (hk : k.length = 16) : Gf128.gmac m k = .ok (Gcm.ghash k m) := Gf128.gmac_ok hk

/-- The GHASH of test case 2 of the GCM specification. -/
example : Gf128.gmac
    [0x03, 0x88, 0xda, 0xce, 0x60, 0xb6, 0xa3, 0x92, 0xf3, 0x28, 0xc2, 0xb9, 0x71, 0xb2, 0xfe, 0x78,
     0, 0, 0, 0, 0, 0, 0, 0, 0, 0, 0, 0, 0, 0, 0, 0x80]
    [0x66, 0xe9, 0x4b, 0xd4, 0xef, 0x8a, 0x2c, 0x3b, 0x88, 0x4c, 0xfa, 0x59, 0xca, 0x34, 0x2b, 0x2e] =
    .ok [0xf3, 0x8c, 0xbb, 0x1a, 0xd6, 0x92, 0x23, 0xdc, 0xc3, 0x45, 0x7a, 0xe5, 0xb6, 0xb0, 0xf8, 0x85] := by
  decide +kernel

/-! ## C45 -/

theorem declassifyEq_eq {a b : List U8} (h : declassifyEq a b = true) : a = b := by
  have e := of_decide_eq_true h
  have hm : ∀ l : List U8, l.map declassify = l := fun l => List.map_id l
  rwa [hm, hm] at e

theorem macKey_eq {alg : Variant} {key : List U8} :
    Spec.Aes.ctrBlock (Hacspec.Aes.nk alg) (Hacspec.Aes.nr alg) key (new 12) 0 =
      Spec.Aes.cipher (Hacspec.Aes.nk alg) (Hacspec.Aes.nr alg) key (List.replicate 16 0) := rfl

/-- **C45.**  `encrypt_aes128/256` return the counter-mode ciphertext (first counter 2) and the GCM tag. -/
theorem C45_encrypt (alg : Variant) (key iv aad m : List U8) (hk : key.length = 4 * Hacspec.Aes.nk alg)
    (hi : iv.length = 12) (hm : m.length < 2 ^ 63) :
    Hacspec.AesGcm.encryptKey key iv aad m alg =
      .ok (Spec.Aes.ctr (Hacspec.Aes.nk alg) (Hacspec.Aes.nr alg) key iv 2 m,
        Gcm.tag (Hacspec.Aes.nk alg) (Hacspec.Aes.nr alg) key iv aad
          (Spec.Aes.ctr (Hacspec.Aes.nk alg) (Hacspec.Aes.nr alg) key iv 2 m)) := by
  have hx := Hacspec.Aes.length_ctrBlock iv 1 hk
  have hg := fun k m => Gf128.length_ghash (k := k) m
  rw [Hacspec.AesGcm.encryptKey, fromSeq_ok, bind_ok, Hacspec.AesGcm.encrypt]
  rw [Hacspec.Aes.ctrKeyblock_ok _ hk (length_new 12), bind_ok, Hacspec.Aes.ctrKeyblock_ok _ hk hi, bind_ok,
    Hacspec.Aes.encrypt, Hacspec.Aes.counterMode_ok _ hk hi hm, bind_ok, Hacspec.AesGcm.padAadMsg_ok, bind_ok,
    arrFromSeq_ok (Hacspec.Aes.length_ctrBlock _ _ hk), bind_ok, C44_gmac _ _ (Hacspec.Aes.length_ctrBlock _ _ hk), bind_ok,
    arrFromSeq_ok (hg _ _), bind_ok, Hacspec.Aes.xorBlock_ok (hg _ _) hx, bind_ok,
    arrFromSeq_ok (Hacspec.Aes.length_xor16 (hg _ _) hx), bind_ok, macKey_eq]
  rfl

/-- **C45.**  `decrypt_aes128/256` accept exactly the GCM tag, and then return the decryption; they never panic. -/
theorem C45_decrypt (alg : Variant) (key iv aad c tag : List U8) (hk : key.length = 4 * Hacspec.Aes.nk alg)
    (hi : iv.length = 12) (hc : c.length < 2 ^ 63) (ht : tag.length = 16) :
    Hacspec.AesGcm.decryptKey key iv aad c tag alg =
      .ok (if tag = Gcm.tag (Hacspec.Aes.nk alg) (Hacspec.Aes.nr alg) key iv aad c
        then some (Spec.Aes.ctr (Hacspec.Aes.nk alg) (Hacspec.Aes.nr alg) key iv 2 c) else none) := by
  have hx := Hacspec.Aes.length_ctrBlock iv 1 hk
  have hg := fun k m => Gf128.length_ghash (k := k) m
  rw [Hacspec.AesGcm.decryptKey, fromSeq_ok, bind_ok, Hacspec.AesGcm.decrypt]
  rw [Hacspec.Aes.ctrKeyblock_ok _ hk (length_new 12), bind_ok, Hacspec.Aes.ctrKeyblock_ok _ hk hi, bind_ok,
    Hacspec.AesGcm.padAadMsg_ok, bind_ok,
    arrFromSeq_ok (Hacspec.Aes.length_ctrBlock _ _ hk), bind_ok, C44_gmac _ _ (Hacspec.Aes.length_ctrBlock _ _ hk), bind_ok,
    arrFromSeq_ok (hg _ _), bind_ok, Hacspec.Aes.xorBlock_ok (hg _ _) hx, bind_ok, arrFromSeq_ok ht, bind_ok, macKey_eq,
    ← Gcm.tag]
  by_cases h : tag = Gcm.tag (Hacspec.Aes.nk alg) (Hacspec.Aes.nr alg) key iv aad c
  · rw [if_pos h, if_pos (by simp [declassifyEq, h]), Hacspec.Aes.encrypt, Hacspec.Aes.counterMode_ok _ hk hi hc]; rfl
  · rw [if_neg h, if_neg (fun e => h (declassifyEq_eq e).symm)]

/-- **C45.**  Round trip, lengths, and rejection of every other tag. -/
theorem C45_round_trip (alg : Variant) (key iv aad m : List U8) (hk : key.length = 4 * Hacspec.Aes.nk alg)
    (hi : iv.length = 12) (hm : m.length < 2 ^ 63) :
    ∃ c t, Hacspec.AesGcm.encryptKey key iv aad m alg = .ok (c, t) ∧ c.length = m.length ∧ t.length = 16 ∧
      Hacspec.AesGcm.decryptKey key iv aad c t alg = .ok (some m) ∧
      ∀ t', t'.length = 16 → t' ≠ t → Hacspec.AesGcm.decryptKey key iv aad c t' alg = .ok none := by
  have hl := ctr_length (m := m) (nonce := iv) (c := 2) hk
  have htl : ∀ c, (Gcm.tag (Hacspec.Aes.nk alg) (Hacspec.Aes.nr alg) key iv aad c).length = 16 := fun c =>
    Hacspec.Aes.length_xor16 (Gf128.length_ghash _) (Hacspec.Aes.length_ctrBlock _ _ hk)
  refine ⟨_, _, C45_encrypt alg key iv aad m hk hi hm, hl, htl _, ?_, fun t' ht' ht => ?_⟩
  · rw [C45_decrypt _ _ _ _ _ _ hk hi (by omega) (htl _), if_pos rfl, ctr_ctr hk]
  · rw [C45_decrypt _ _ _ _ _ _ hk hi (by omega) ht', if_neg ht]

example := C45_round_trip .aes256 (List.replicate 32 1) (List.replicate 12 2) [5, 6] (List.replicate 100 3)
  (by simp [Hacspec.Aes.nk]) (by simp) (by simp)

/-- Test case 2 of the GCM specification. -/
example : Hacspec.AesGcm.encryptKey (List.replicate 16 0) (List.replicate 12 0) [] (List.replicate 16 0) .aes128 =
    .ok ([0x03, 0x88, 0xda, 0xce, 0x60, 0xb6, 0xa3, 0x92, 0xf3, 0x28, 0xc2, 0xb9, 0x71, 0xb2, 0xfe, 0x78],
      [0xab, 0x6e, 0x47, 0xd4, 0x2c, 0xec, 0x13, 0xbd, 0xf5, 0x3a, 0x67, 0xb2, 0x12, 0x57, 0xbd, 0xdf]) := by
  decide +kernel

/-! ## C40 -/

theorem be64_inj {m n : Nat} (hm : m < 2 ^ 64) (hn : n < 2 ^ 64)
    (h : bytesBe64 (BitVec.ofNat 64 m) = bytesBe64 (BitVec.ofNat 64 n)) : m = n := by
  have hx : ∀ x : U64, (bytesBe64 x).foldl (fun a b => 256 * a + b.toNat) 0 = x.toNat := by
    intro x
    simp only [bytesBe64, List.foldl_cons, List.foldl_nil, BitVec.extractLsb'_toNat, Nat.shiftRight_eq_div_pow]
    have := x.isLt
    omega
  have e := congrArg (List.foldl (fun (a : Nat) (b : BitVec 8) => 256 * a + b.toNat) 0) h
  rw [hx, hx, BitVec.toNat_ofNat, BitVec.toNat_ofNat] at e
  omega

/-- **C40.**  The MAC input of AES-GCM determines associated data and ciphertext. -/
theorem C40_aes_gcm (aad aad' c c' p : List U8) (ha : aad.length < 2 ^ 61) (ha' : aad'.length < 2 ^ 61)
    (hc : c.length < 2 ^ 61) (hc' : c'.length < 2 ^ 61)
    (h : Hacspec.AesGcm.padAadMsg aad c = .ok p) (h' : Hacspec.AesGcm.padAadMsg aad' c' = .ok p) :
    aad = aad' ∧ c = c' := by
  rw [Hacspec.AesGcm.padAadMsg_ok] at h h'
  rw [← h'] at h
  injection h with h
  rw [Gcm.macData, Gcm.macData] at h
  obtain ⟨h, hlc⟩ := List.append_inj' h rfl
  obtain ⟨h, hla⟩ := List.append_inj' h rfl
  have ela := be64_inj (by omega) (by omega) hla
  have elc := be64_inj (by omega) (by omega) hlc
  rw [List.append_assoc, List.append_assoc, List.append_assoc, List.append_assoc] at h
  obtain ⟨e1, h⟩ := List.append_inj h (by omega)
  rw [e1] at h
  have h := List.append_cancel_left h
  exact ⟨e1, (List.append_inj h (by omega)).1⟩

example : Hacspec.AesGcm.padAadMsg [1] [2] ≠ Hacspec.AesGcm.padAadMsg [1, 0] [2] := by
  intro h
  have e := Hacspec.AesGcm.padAadMsg_ok [1] [2]
  have := C40_aes_gcm [1] [1, 0] [2] [2] _ (by decide) (by decide) (by decide) (by decide) e (h ▸ e)
  simp at this

end Hacspec.Props
