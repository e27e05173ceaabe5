import Verif.Lemmas.Leak.Blake2
import Verif.Model.Leak.Aes

/-! # AES and GHASH: forgetting the events; the parts whose events depend on lengths only -/

namespace Hacspec.Leak.Aes

open Leak.Seq
open Leak.Blake2 (shrU_rel shl_rel)

theorem shiftRow_same {i : Nat} {n : Nat} {s s' : List U8} (hs : Len s s') :
    Same Len (shiftRow i n s) (shiftRow i n s') := by
  unfold shiftRow
  ct

@[simp] theorem res_shiftRow (i : Nat) (n : Nat) (s : List U8) :
    (shiftRow i n s).res = Hacspec.Aes.shiftRow i n s := by
  simp [shiftRow, Hacspec.Aes.shiftRow]

macro_rules | `(tactic| ct_leaf) => `(tactic| with_reducible refine shiftRow_same ?_)

theorem shiftRows_same {s s' : List U8} (hs : Len s s') :
    Same Len (shiftRows s) (shiftRows s') := by
  unfold shiftRows
  ct

@[simp] theorem res_shiftRows (s : List U8) :
    (shiftRows s).res = Hacspec.Aes.shiftRows s := by
  simp [shiftRows, Hacspec.Aes.shiftRows]

macro_rules | `(tactic| ct_leaf) => `(tactic| with_reducible refine shiftRows_same ?_)

theorem xtime_same {x x' : U8} :
    Same Any (xtime x) (xtime x') := by
  unfold xtime
  refine Same.bind (R := Any) (Same.lift shl_rel) ?_
  intro _ _ _
  refine Same.bind (R := Any) (Same.lift shrU_rel) ?_
  ct

@[simp] theorem res_xtime (x : U8) :
    (xtime x).res = Hacspec.Aes.xtime x := by
  simp [xtime, Hacspec.Aes.xtime]

macro_rules | `(tactic| ct_leaf) => `(tactic| with_reducible refine xtime_same)

theorem mixColumn_same {c : Nat} {s s' : List U8} (hs : Len s s') :
    Same Len (mixColumn c s) (mixColumn c s') := by
  unfold mixColumn
  ct

@[simp] theorem res_mixColumn (c : Nat) (s : List U8) :
    (mixColumn c s).res = Hacspec.Aes.mixColumn c s := by
  simp [mixColumn, Hacspec.Aes.mixColumn]

macro_rules | `(tactic| ct_leaf) => `(tactic| with_reducible refine mixColumn_same ?_)

theorem mixColumns_same {s s' : List U8} (hs : Len s s') :
    Same Len (mixColumns s) (mixColumns s') := by
  unfold mixColumns
  ct

@[simp] theorem res_mixColumns (s : List U8) :
    (mixColumns s).res = Hacspec.Aes.mixColumns s := by
  simp [mixColumns, Hacspec.Aes.mixColumns]

macro_rules | `(tactic| ct_leaf) => `(tactic| with_reducible refine mixColumns_same ?_)

theorem addRoundKey_same {s s' : List U8} {k k' : List U8} (hs : Len s s') (hk : Len k k') :
    Same Len (addRoundKey s k) (addRoundKey s' k') := by
  unfold addRoundKey
  ct

@[simp] theorem res_addRoundKey (s : List U8) (k : List U8) :
    (addRoundKey s k).res = Hacspec.Aes.addRoundKey s k := by
  simp [addRoundKey, Hacspec.Aes.addRoundKey]

macro_rules | `(tactic| ct_leaf) => `(tactic| with_reducible refine addRoundKey_same ?_ ?_)

theorem xorBlock_same {s s' : List U8} {k k' : List U8} (hs : Len s s') (hk : Len k k') :
    Same Len (xorBlock s k) (xorBlock s' k') := by
  unfold xorBlock
  ct

@[simp] theorem res_xorBlock (s : List U8) (k : List U8) :
    (xorBlock s k).res = Hacspec.Aes.xorBlock s k := by
  simp [xorBlock, Hacspec.Aes.xorBlock]

macro_rules | `(tactic| ct_leaf) => `(tactic| with_reducible refine xorBlock_same ?_ ?_)

@[simp] theorem res_subByte (x : U8) :
    (subByte x).res = Hacspec.Aes.subByte x := by
  simp [subByte, Hacspec.Aes.subByte]

@[simp] theorem res_subBytes (s : List U8) :
    (subBytes s).res = Hacspec.Aes.subBytes s := by
  simp [subBytes, Hacspec.Aes.subBytes]

@[simp] theorem res_aesEnc (s : List U8) (k : List U8) :
    (aesEnc s k).res = Hacspec.Aes.aesEnc s k := by
  simp [aesEnc, Hacspec.Aes.aesEnc]

@[simp] theorem res_aesEncLast (s : List U8) (k : List U8) :
    (aesEncLast s k).res = Hacspec.Aes.aesEncLast s k := by
  simp [aesEncLast, Hacspec.Aes.aesEncLast]

@[simp] theorem res_roundsAes (s : List U8) (k : List U8) :
    (roundsAes s k).res = Hacspec.Aes.roundsAes s k := by
  simp [roundsAes, Hacspec.Aes.roundsAes]

@[simp] theorem res_blockCipher (s : List U8) (k : List U8) (n : Nat) :
    (blockCipher s k n).res = Hacspec.Aes.blockCipher s k n := by
  simp [blockCipher, Hacspec.Aes.blockCipher]

@[simp] theorem res_rotateWord (w : List U8) :
    (rotateWord w).res = Hacspec.Aes.rotateWord w := by
  simp [rotateWord, Hacspec.Aes.rotateWord]

@[simp] theorem res_subWord (w : List U8) :
    (subWord w).res = Hacspec.Aes.subWord w := by
  simp [subWord, Hacspec.Aes.subWord]

@[simp] theorem res_keygenAssist (w : List U8) (c : U8) :
    (keygenAssist w c).res = Hacspec.Aes.keygenAssist w c := by
  simp [keygenAssist, Hacspec.Aes.keygenAssist]

@[simp] theorem res_expansionCore (w : List U8) (i : Nat) (nk : Nat) :
    (expansionCore w i nk).res = Hacspec.Aes.expansionCore w i nk := by
  simp [expansionCore, Hacspec.Aes.expansionCore]

@[simp] theorem res_expansionWord (w : List U8) (v : List U8) (i : Nat) (nk : Nat) (nr : Nat) :
    (expansionWord w v i nk nr).res = Hacspec.Aes.expansionWord w v i nk nr := by
  simp [expansionWord, Hacspec.Aes.expansionWord]

@[simp] theorem res_expansionStep (nk : Nat) (nr : Nat) (alg : Hacspec.Aes.Variant) (j : Nat) (k : List U8) :
    (expansionStep nk nr alg j k).res = Hacspec.Aes.expansionStep nk nr alg j k := by
  simp [expansionStep, Hacspec.Aes.expansionStep]

@[simp] theorem res_keyExpansion (k : List U8) (nk : Nat) (nr : Nat) (alg : Hacspec.Aes.Variant) :
    (keyExpansion k nk nr alg).res = Hacspec.Aes.keyExpansion k nk nr alg := by
  simp [keyExpansion, Hacspec.Aes.keyExpansion]

@[simp] theorem res_encryptBlock (k : List U8) (s : List U8) (nk : Nat) (nr : Nat) (alg : Hacspec.Aes.Variant) :
    (encryptBlock k s nk nr alg).res = Hacspec.Aes.encryptBlock k s nk nr alg := by
  simp [encryptBlock, Hacspec.Aes.encryptBlock]

@[simp] theorem res_aes128EncryptBlock (k : List U8) (s : List U8) (nk : Nat) (nr : Nat) :
    (aes128EncryptBlock k s nk nr).res = Hacspec.Aes.aes128EncryptBlock k s nk nr := by
  simp [aes128EncryptBlock, Hacspec.Aes.aes128EncryptBlock]

@[simp] theorem res_aes256EncryptBlock (k : List U8) (s : List U8) (nk : Nat) (nr : Nat) :
    (aes256EncryptBlock k s nk nr).res = Hacspec.Aes.aes256EncryptBlock k s nk nr := by
  simp [aes256EncryptBlock, Hacspec.Aes.aes256EncryptBlock]

@[simp] theorem res_ctrKeyblock (k : List U8) (n : List U8) (c : U32) (nk : Nat) (nr : Nat) (alg : Hacspec.Aes.Variant) :
    (ctrKeyblock k n c nk nr alg).res = Hacspec.Aes.ctrKeyblock k n c nk nr alg := by
  simp [ctrKeyblock, Hacspec.Aes.ctrKeyblock]

@[simp] theorem res_ctrBranch (n : Nat) (m : List U8) (k : List U8) (i : Nat) (st : U32 × List U8) :
    (ctrBranch n m k i st).res = Hacspec.Aes.ctrBranch n m k i st := by
  simp [ctrBranch, Hacspec.Aes.ctrBranch]

@[simp] theorem res_ctrStep (k : List U8) (n : List U8) (m : List U8) (nk : Nat) (nr : Nat) (alg : Hacspec.Aes.Variant) (i : Nat) (st : U32 × List U8) :
    (ctrStep k n m nk nr alg i st).res = Hacspec.Aes.ctrStep k n m nk nr alg i st := by
  simp [ctrStep, Hacspec.Aes.ctrStep]

@[simp] theorem res_counterMode (k : List U8) (n : List U8) (c : U32) (m : List U8) (nk : Nat) (nr : Nat) (alg : Hacspec.Aes.Variant) :
    (counterMode k n c m nk nr alg).res = Hacspec.Aes.counterMode k n c m nk nr alg := by
  simp [counterMode, Hacspec.Aes.counterMode]

@[simp] theorem res_encrypt (k : List U8) (n : List U8) (c : U32) (m : List U8) (alg : Hacspec.Aes.Variant) :
    (encrypt k n c m alg).res = Hacspec.Aes.encrypt k n c m alg := by
  simp [encrypt, Hacspec.Aes.encrypt]

@[simp] theorem res_encryptKey (k : List U8) (n : List U8) (c : U32) (m : List U8) (alg : Hacspec.Aes.Variant) :
    (encryptKey k n c m alg).res = Hacspec.Aes.encryptKey k n c m alg := by
  simp [encryptKey, Hacspec.Aes.encryptKey]

end Hacspec.Leak.Aes

namespace Hacspec.Leak.Gf128

open Leak.Seq

@[simp] theorem res_fmulStep (y : U128) (i : Nat) (st : U128 × U128) :
    (fmulStep y i st).res = Hacspec.Gf128.fmulStep y i st := by
  simp only [fmulStep, Hacspec.Gf128.fmulStep, res_bind, res_lift, res_branch, res_ok]
  congr 1
  funext b
  split <;> (rw [bind_ok]; congr 1; funext s; split <;> rfl)

@[simp] theorem res_fmul (x : U128) (y : U128) :
    (fmul x y).res = Hacspec.Gf128.fmul x y := by
  simp [fmul, Hacspec.Gf128.fmul]

theorem encode_same {b b' : List U8} (hb : Len b b') :
    Same Any (encode b) (encode b') := by
  unfold encode
  ct

@[simp] theorem res_encode (b : List U8) :
    (encode b).res = Hacspec.Gf128.encode b := by
  simp [encode, Hacspec.Gf128.encode]

macro_rules | `(tactic| ct_leaf) => `(tactic| with_reducible refine encode_same ?_)

theorem decode_same {x x' : U128} :
    Same Len (decode x) (decode x') := by
  unfold decode
  ct

@[simp] theorem res_decode (x : U128) :
    (decode x).res = Hacspec.Gf128.decode x := by
  simp [decode, Hacspec.Gf128.decode]

macro_rules | `(tactic| ct_leaf) => `(tactic| with_reducible refine decode_same)

@[simp] theorem res_update (r : U128) (b : List U8) (a : U128) :
    (update r b a).res = Hacspec.Gf128.update r b a := by
  simp [update, Hacspec.Gf128.update]

@[simp] theorem res_polyStep (m : List U8) (r : U128) (i : Nat) (a : U128) :
    (polyStep m r i a).res = Hacspec.Gf128.polyStep m r i a := by
  simp [polyStep, Hacspec.Gf128.polyStep]

@[simp] theorem res_polyLast (m : List U8) (r : U128) (a : U128) :
    (polyLast m r a).res = Hacspec.Gf128.polyLast m r a := by
  simp [polyLast, Hacspec.Gf128.polyLast]

@[simp] theorem res_poly (m : List U8) (r : U128) :
    (poly m r).res = Hacspec.Gf128.poly m r := by
  simp [poly, Hacspec.Gf128.poly]

@[simp] theorem res_gmac (m : List U8) (k : List U8) :
    (gmac m k).res = Hacspec.Gf128.gmac m k := by
  simp [gmac, Hacspec.Gf128.gmac]

end Hacspec.Leak.Gf128

namespace Hacspec.Leak.AesGcm

open Leak.Seq

@[simp] theorem res_padLen (l : Nat) : (padLen l).res = .ok (Hacspec.AesGcm.padLen l) := by
  unfold padLen Hacspec.AesGcm.padLen
  rw [res_branch]
  split <;> rfl

@[simp] theorem res_padAadMsg (a : List U8) (m : List U8) :
    (padAadMsg a m).res = Hacspec.AesGcm.padAadMsg a m := by
  simp [padAadMsg, Hacspec.AesGcm.padAadMsg]

@[simp] theorem res_encrypt (k : List U8) (iv : List U8) (a : List U8) (m : List U8) (alg : Hacspec.Aes.Variant) :
    (encrypt k iv a m alg).res = Hacspec.AesGcm.encrypt k iv a m alg := by
  simp [encrypt, Hacspec.AesGcm.encrypt]

@[simp] theorem res_encryptKey (k : List U8) (iv : List U8) (a : List U8) (m : List U8) (alg : Hacspec.Aes.Variant) :
    (encryptKey k iv a m alg).res = Hacspec.AesGcm.encryptKey k iv a m alg := by
  simp [encryptKey, Hacspec.AesGcm.encryptKey]

@[simp] theorem res_decrypt (k : List U8) (iv : List U8) (a : List U8) (c : List U8) (t : List U8) (alg : Hacspec.Aes.Variant) :
    (decrypt k iv a c t alg).res = Hacspec.AesGcm.decrypt k iv a c t alg := by
  simp [decrypt, Hacspec.AesGcm.decrypt]

@[simp] theorem res_decryptKey (k : List U8) (iv : List U8) (a : List U8) (c : List U8) (t : List U8) (alg : Hacspec.Aes.Variant) :
    (decryptKey k iv a c t alg).res = Hacspec.AesGcm.decryptKey k iv a c t alg := by
  simp [decryptKey, Hacspec.AesGcm.decryptKey]

end Hacspec.Leak.AesGcm
