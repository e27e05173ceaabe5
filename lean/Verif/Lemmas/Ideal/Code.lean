import Verif.Model.IdealAead
import Verif.Props.ChaChas
import Verif.Props.Aess

/-! # What the AEADs compute with an arbitrary block function -/

namespace Hacspec.Ideal

open Spec SecretInt Hacspec.Seq VecInt

/-- A message encrypted with key stream blocks of `n` bytes. -/
def stream (n : Nat) (g : Nat → List U8) (m : List U8) : List U8 :=
  (List.range ((m.length + n - 1) / n)).flatMap fun j => Spec.xor (Spec.block n m j) (g j)

/-! ## ChaCha20-Poly1305 -/

theorem chachaBlock_ok (F : Bytes 12 × U32 → Bytes 64) (iv : Bytes 12) (c : U32) :
    chachaBlock F iv.1 c = .ok (F (iv, c)).1 := by
  rw [chachaBlock, dif_pos iv.2]

theorem chachaStepWith_ok (F : Bytes 12 × U32 → Bytes 64) (iv : Bytes 12) {m : List U8} {i : Nat} {c : U32}
    {out : List U8} (h : 64 * i ≤ m.length) :
    ChaCha.chachaStepWith (chachaBlock F) iv.1 m i (c, out) = (do
      let o ← setChunk out 64 i (Spec.xor (Spec.block 64 m i) (F (iv, c)).1)
      .ok (c + 1, o)) := by
  have hb := (F (iv, c)).2
  have hl := ChaCha.length_block (n := 64) (i := i) (m := m)
  rw [ChaCha.chachaStepWith, getChunk_ok h, bind_ok]
  show (do
    let keyBlock ← chachaBlock F iv.1 c
    let padded ← updateStart (new 64) (Spec.block 64 m i)
    let x ← arrXorSecret 64 padded keyBlock
    let x ← subr x 0 (min 64 (m.length - 64 * i))
    let out ← setChunk out 64 i x
    .ok (SecretInt.add c 1, out)) = _
  rw [chachaBlock_ok, bind_ok, updateStart_new (by omega), bind_ok,
    arrXorSecret_ok (by rw [List.length_append, List.length_replicate]; omega) hb, bind_ok, subr,
    require_true (by omega), bind_ok, sub_ok (by simp [hb]; omega), bind_ok, List.drop_zero, Nat.sub_zero, ← hl,
    ChaCha.zipWith_take_left]
  rfl

theorem chachaWith_ok (F : Bytes 12 × U32 → Bytes 64) (iv : Bytes 12) {m : List U8} (hm : m.length < 2 ^ 63) :
    ChaCha.chachaWith (chachaBlock F) iv.1 m = .ok (stream 64 (fun j => (F (iv, 1 + BitVec.ofNat 32 j)).1) m) := by
  rw [ChaCha.chachaWith, numChunks_ok (by omega) (by omega), bind_ok]
  have := chunk_loop (n := (m.length + 64 - 1) / 64) (cs := 64) (by omega) (fun i => (1 : U32) + BitVec.ofNat 32 i)
    (fun i => Spec.xor (Spec.block 64 m i) (F (iv, 1 + BitVec.ofNat 32 i)).1)
    (self := (new m.length : List U8)) (body := ChaCha.chachaStepWith (chachaBlock F) iv.1 m) (by rw [length_new])
    (by
      intro i _
      rw [Spec.xor, List.length_zipWith, (F _).2, ChaCha.length_block, length_new]; omega)
    (by
      intro i h out ho
      rw [chachaStepWith_ok F iv (by omega)]
      congr 1
      funext o
      congr 2
      rw [BitVec.add_assoc]
      congr 1
      apply BitVec.eq_of_toNat_eq
      simp)
  rw [show ((1 : U32), (new m.length : List U8)) = ((1 : U32) + BitVec.ofNat 32 0, new m.length) from rfl, this,
    bind_ok]
  rfl

/-- The tag that `poly` computes. -/
def polyTag (k : List U8) (aad c : List U8) : List U8 :=
  (Hacspec.Poly1305.poly (Poly1305.macData aad c) k).toOption.getD []

theorem polyTag_ok {k : List U8} (hk : k.length = 32) (aad c : List U8) :
    Hacspec.Poly1305.poly (Poly1305.macData aad c) k = .ok (polyTag k aad c) ∧ (polyTag k aad c).length = 16 := by
  obtain ⟨t, h, hl⟩ := Props.C38_total (Poly1305.macData aad c) k hk
  rw [polyTag, h]
  exact ⟨rfl, hl⟩

/-- The one-time key. -/
def polyKey (F : Bytes 12 × U32 → Bytes 64) (iv : Bytes 12) : List U8 := (F (iv, 0)).1.take 32

theorem length_polyKey (F : Bytes 12 × U32 → Bytes 64) (iv : Bytes 12) : (polyKey F iv).length = 32 := by
  rw [polyKey, List.length_take, (F (iv, 0)).2]; rfl

/-- The ciphertext. -/
def chachaCt (F : Bytes 12 × U32 → Bytes 64) (iv : Bytes 12) (m : List U8) : List U8 :=
  stream 64 (fun j => (F (iv, 1 + BitVec.ofNat 32 j)).1) m

theorem chachaPoly_enc (F : Bytes 12 × U32 → Bytes 64) (iv : Bytes 12) (aad : List U8) {m : List U8} (hm : m.length < 2 ^ 63) :
    chachaPoly.enc F iv aad m = .ok (chachaCt F iv m, polyTag (polyKey F iv) aad (chachaCt F iv m)) := by
  have hb := (F (iv, 0)).2
  show ChaChaPoly.encryptWith _ _ _ _ = _
  rw [ChaChaPoly.encryptWith, chachaBlock_ok, bind_ok, ChaCha.arrFromSubRange_ok (by omega) (by omega) (by omega), bind_ok,
    chachaWith_ok F iv hm, bind_ok, ChaChaPoly.padAadMsg_ok, bind_ok, List.drop_zero]
  show (do
    let tag ← Hacspec.Poly1305.poly (Poly1305.macData aad (chachaCt F iv m)) (polyKey F iv)
    Except.ok (chachaCt F iv m, tag)) = _
  rw [(polyTag_ok (length_polyKey F iv) aad _).1, bind_ok]

theorem chachaPoly_dec (F : Bytes 12 × U32 → Bytes 64) (iv : Bytes 12) (aad : List U8) {c : List U8} (hc : c.length < 2 ^ 63)
    (t : Bytes 16) :
    chachaPoly.dec F iv aad c t = .ok (if polyTag (polyKey F iv) aad c = t.1 then some (chachaCt F iv c) else none) := by
  have hb := (F (iv, 0)).2
  show ChaChaPoly.decryptWith _ _ _ _ _ = _
  rw [ChaChaPoly.decryptWith, chachaBlock_ok, bind_ok, ChaCha.arrFromSubRange_ok (by omega) (by omega) (by omega), bind_ok,
    ChaChaPoly.padAadMsg_ok, bind_ok, List.drop_zero]
  show (do
    let myTag ← Hacspec.Poly1305.poly (Poly1305.macData aad c) (polyKey F iv)
    if myTag = t.1 then do
      let c ← ChaCha.chachaWith (chachaBlock F) iv.1 c
      .ok (some c)
    else .ok none) = _
  rw [(polyTag_ok (length_polyKey F iv) aad _).1, bind_ok, chachaWith_ok F iv hc]
  split <;> rfl

/-! ## AES-GCM -/

/-- The block with nonce and counter. -/
def point (iv : Bytes 12) (c : U32) : Bytes 16 := ⟨iv.1 ++ bytesBe32 c, by rw [List.length_append, iv.2]; rfl⟩

theorem ctrKeyblockWith_ok (F : Bytes 16 → Bytes 16) (iv : Bytes 12) (c : U32) :
    Aes.ctrKeyblockWith (aesBlock F) iv.1 c = .ok (F (point iv c)).1 := by
  have hi := iv.2
  rw [Aes.ctrKeyblockWith, show (new 16 : List U8) = [] ++ List.replicate 16 0 from rfl,
    ChaChaPoly.update_append (i := 0) rfl (by rw [hi, List.length_replicate]; omega), bind_ok, wordToBeBytes_ok, bind_ok,
    List.nil_append, ChaChaPoly.update_append hi (by rw [hi]; simp [beOfWord32, Spec.bytesBe32]), bind_ok, beOfWord32,
    List.drop_of_length_le (l := List.drop _ _) (by rw [hi]; simp [Spec.bytesBe32]), List.append_nil, aesBlock,
    dif_pos (by rw [List.length_append, hi]; rfl)]
  rfl

theorem ctrStepWith_ok (F : Bytes 16 → Bytes 16) (iv : Bytes 12) {m : List U8} {c : U32} {out : List U8} {i : Nat}
    (h : 16 * i < m.length) :
    Aes.ctrStepWith (aesBlock F) iv.1 m i (c, out) = (do
      let o ← setChunk out 16 i (Spec.xor (Spec.block 16 m i) (F (point iv c)).1)
      .ok (if 16 * (i + 1) ≤ m.length then c + 1 else c, o)) := by
  have hb := ChaCha.length_block (n := 16) (i := i) (m := m)
  have hc := (F (point iv c)).2
  rw [Aes.ctrStepWith, getChunk_ok (by omega), bind_ok, ctrKeyblockWith_ok, bind_ok]
  simp only [show ((m.drop (16 * i)).take 16) = Spec.block 16 m i from rfl, Aes.ctrBranch]
  by_cases hf : (Spec.block 16 m i).length = 16
  · rw [if_pos hf, arrFromSeq_ok hf, bind_ok, Aes.xorBlock_ok hf hc, bind_ok, if_pos (by omega)]
    rfl
  · have hl : (Spec.block 16 m i).length < 16 := by omega
    rw [if_neg hf, updateStart_new (by omega), bind_ok,
      Aes.xorBlock_ok (by rw [List.length_append, List.length_replicate]; omega) hc, bind_ok, subr, require_true (by omega),
      bind_ok, sub_ok (by rw [Aes.length_xor, List.length_append, List.length_replicate, hc]; omega), bind_ok, List.drop_zero,
      Nat.sub_zero, if_neg (by omega), ← hb, Spec.xor, ChaCha.zipWith_take_left]
    rfl

theorem counterModeWith_ok (F : Bytes 16 → Bytes 16) (iv : Bytes 12) {m : List U8} (c : U32) (hm : m.length < 2 ^ 63) :
    Aes.counterModeWith (aesBlock F) iv.1 c m = .ok (stream 16 (fun j => (F (point iv (c + BitVec.ofNat 32 j))).1) m) := by
  rw [Aes.counterModeWith, numChunks_ok (by omega) (by omega), bind_ok]
  have := chunk_loop (n := (m.length + 16 - 1) / 16) (cs := 16) (by omega)
    (fun i => c + BitVec.ofNat 32 (min i (m.length / 16)))
    (fun i => Spec.xor (Spec.block 16 m i) (F (point iv (c + BitVec.ofNat 32 i))).1)
    (self := (new m.length : List U8)) (body := Aes.ctrStepWith (aesBlock F) iv.1 m) (by rw [length_new])
    (by
      intro i _
      rw [Aes.length_xor, (F _).2, ChaCha.length_block, length_new]; omega)
    (by
      intro i h out ho
      rw [ctrStepWith_ok F iv (by omega), Nat.min_eq_left (show i ≤ m.length / 16 by omega)]
      congr 1
      funext o
      congr 2
      by_cases hf : 16 * (i + 1) ≤ m.length
      · rw [if_pos hf, Nat.min_eq_left (by omega), BitVec.add_assoc]
        congr 1
        apply BitVec.eq_of_toNat_eq
        simp
      · rw [if_neg hf, show min (i + 1) (m.length / 16) = i by omega])
  rw [show (c, (new m.length : List U8)) = (c + BitVec.ofNat 32 (min 0 (m.length / 16)), new m.length) by
    rw [Nat.zero_min]; simp, this, bind_ok]
  rfl

/-- The nonce of zeros. -/
def zeroIv : Bytes 12 := ⟨new 12, length_new 12⟩

/-- The ciphertext. -/
def gcmCt (F : Bytes 16 → Bytes 16) (iv : Bytes 12) (m : List U8) : List U8 :=
  stream 16 (fun j => (F (point iv (2 + BitVec.ofNat 32 j))).1) m

/-- The hash of associated data and ciphertext. -/
noncomputable def gh (h : Bytes 16) (aad c : List U8) : Bytes 16 := ⟨Gcm.ghash h.1 (Gcm.macData aad c), Gf128.length_ghash _⟩

/-- Exclusive or. -/
def bxor {n : Nat} (a b : Bytes n) : Bytes n := ⟨Spec.xor a.1 b.1, by rw [Spec.xor, List.length_zipWith, a.2, b.2, Nat.min_self]⟩

/-- The tag. -/
noncomputable def gTag (F : Bytes 16 → Bytes 16) (iv : Bytes 12) (aad c : List U8) : Bytes 16 :=
  bxor (gh (F (point zeroIv 0)) aad c) (F (point iv 1))

theorem aesGcm_enc (F : Bytes 16 → Bytes 16) (iv : Bytes 12) (aad : List U8) {m : List U8} (hm : m.length < 2 ^ 63) :
    aesGcm.enc F iv aad m = .ok (gcmCt F iv m, (gTag F iv aad (gcmCt F iv m)).1) := by
  have hg := fun k m => Gf128.length_ghash (k := k) m
  show AesGcm.encryptWith _ _ _ _ = _
  rw [AesGcm.encryptWith]
  simp only [show (new 12 : List U8) = zeroIv.1 from rfl]
  rw [ctrKeyblockWith_ok, bind_ok, ctrKeyblockWith_ok, bind_ok, counterModeWith_ok F iv 2 hm, bind_ok, AesGcm.padAadMsg_ok,
    bind_ok, arrFromSeq_ok (F _).2, bind_ok, Gf128.gmac_ok (F _).2, bind_ok, arrFromSeq_ok (hg _ _), bind_ok,
    Aes.xorBlock_ok (hg _ _) (F _).2, bind_ok, arrFromSeq_ok (Aes.length_xor16 (hg _ _) (F _).2), bind_ok]
  rfl

theorem aesGcm_dec (F : Bytes 16 → Bytes 16) (iv : Bytes 12) (aad : List U8) {c : List U8} (hc : c.length < 2 ^ 63) (t : Bytes 16) :
    aesGcm.dec F iv aad c t = .ok (if gTag F iv aad c = t then some (gcmCt F iv c) else none) := by
  have hg := fun k m => Gf128.length_ghash (k := k) m
  show AesGcm.decryptWith _ _ _ _ _ = _
  rw [AesGcm.decryptWith]
  simp only [show (new 12 : List U8) = zeroIv.1 from rfl]
  rw [ctrKeyblockWith_ok, bind_ok, ctrKeyblockWith_ok, bind_ok, AesGcm.padAadMsg_ok,
    bind_ok, arrFromSeq_ok (F _).2, bind_ok, Gf128.gmac_ok (F _).2, bind_ok, arrFromSeq_ok (hg _ _), bind_ok,
    Aes.xorBlock_ok (hg _ _) (F _).2, bind_ok, arrFromSeq_ok t.2, bind_ok, counterModeWith_ok F iv 2 hc]
  by_cases h : gTag F iv aad c = t
  · rw [if_pos h, if_pos]
    · rfl
    · have h : Spec.xor (Gcm.ghash (F (point zeroIv 0)).1 (Gcm.macData aad c)) (F (point iv 1)).1 = t.1 := congrArg Subtype.val h
      rw [h]; simp [declassifyEq]
  · rw [if_neg h, if_neg]
    exact fun e => h (Subtype.ext (Props.declassifyEq_eq e))

end Hacspec.Ideal
