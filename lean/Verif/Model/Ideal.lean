import Verif.Model.ChaCha
import Verif.Model.Aes

/-! # The AEADs with the block function as a parameter

The definitions of `Verif.Model.ChaCha` and `Verif.Model.Aes` once more, with the calls of `block` (`chacha20.rs:82-85`) and
of `aes_encrypt_block` (`aes.rs:206-209`) replaced by calls of a function that is passed in.  `*_instance` say that nothing else
changes. -/

namespace Hacspec.ChaCha

open SecretInt Hacspec.Seq VecInt

/-- `chacha20.rs:90-97` body of the loop of `chacha`; `blk iv ctr` stands for `block(key, ctr, iv)`. -/
def chachaStepWith (blk : List U8 → U32 → M (List U8)) (iv m : List U8) (i : Nat) (st : U32 × List U8) : M (U32 × List U8) := do
  let c ← getChunk m 64 i
  let keyBlock ← blk iv st.1
  let padded ← updateStart (new 64) c.2
  let x ← arrXorSecret 64 padded keyBlock
  let x ← subr x 0 c.1
  let out ← setChunk st.2 64 i x
  .ok (SecretInt.add st.1 1, out)

/-- `chacha20.rs:87-99` `chacha`. -/
def chachaWith (blk : List U8 → U32 → M (List U8)) (iv m : List U8) : M (List U8) := do
  let n ← numChunks m 64
  let st ← loop n (chachaStepWith blk iv m) (1, new m.length)
  .ok st.2

end Hacspec.ChaCha

namespace Hacspec.ChaChaPoly

open SecretInt Hacspec.Seq

/-- `chacha20poly1305.rs:29-42` `encrypt`. -/
def encryptWith (blk : List U8 → U32 → M (List U8)) (iv aad msg : List U8) : M (List U8 × List U8) := do
  let keyBlock ← blk iv 0
  let macKey ← arrFromSubRange 32 keyBlock 0 32
  let c ← ChaCha.chachaWith blk iv msg
  let p ← padAadMsg aad c
  let tag ← Poly1305.poly p macKey
  .ok (c, tag)

/-- `chacha20poly1305.rs:44-66` `decrypt`. -/
def decryptWith (blk : List U8 → U32 → M (List U8)) (iv aad cipherText tag : List U8) : M (Option (List U8)) := do
  let keyBlock ← blk iv 0
  let macKey ← arrFromSubRange 32 keyBlock 0 32
  let p ← padAadMsg aad cipherText
  let myTag ← Poly1305.poly p macKey
  if myTag = tag then do
    let c ← ChaCha.chachaWith blk iv cipherText
    .ok (some c)
  else .ok none

theorem encrypt_instance (key iv aad m : List U8) :
    encrypt key iv aad m = encryptWith (fun iv ctr => ChaCha.block key ctr iv) iv aad m := rfl

theorem decrypt_instance (key iv aad c t : List U8) :
    decrypt key iv aad c t = decryptWith (fun iv ctr => ChaCha.block key ctr iv) iv aad c t := rfl

end Hacspec.ChaChaPoly

namespace Hacspec.Aes

open SecretInt Hacspec.Seq

/-- `aes.rs:218-223` `aes_ctr_keyblock`; `E` stands for `aes_encrypt_block(k, _, nk, nr, alg)`. -/
def ctrKeyblockWith (E : List U8 → M (List U8)) (n : List U8) (c : U32) : M (List U8) := do
  let input ← update (new 16) 0 n
  let cb ← wordToBeBytes c
  let input ← update input 12 cb
  E input

/-- `aes.rs:244-263` body of the loop of `aes_counter_mode`. -/
def ctrStepWith (E : List U8 → M (List U8)) (nonce msg : List U8) (i : Nat) (st : U32 × List U8) : M (U32 × List U8) := do
  let c ← getChunk msg 16 i
  let keyBlock ← ctrKeyblockWith E nonce st.1
  ctrBranch c.1 c.2 keyBlock i st

/-- `aes.rs:233-265` `aes_counter_mode`. -/
def counterModeWith (E : List U8 → M (List U8)) (nonce : List U8) (counter : U32) (msg : List U8) : M (List U8) := do
  let n ← numChunks msg 16
  let st ← loop n (ctrStepWith E nonce msg) (counter, new msg.length)
  .ok st.2

end Hacspec.Aes

namespace Hacspec.AesGcm

open SecretInt Hacspec.Seq

/-- `aesgcm.rs:38-56` `encrypt_aes`. -/
def encryptWith (E : List U8 → M (List U8)) (iv aad msg : List U8) : M (List U8 × List U8) := do
  let iv0 : List U8 := new 12
  let macKey ← Aes.ctrKeyblockWith E iv0 0
  let tagMix ← Aes.ctrKeyblockWith E iv 1
  let c ← Aes.counterModeWith E iv 2 msg
  let p ← padAadMsg aad c
  let mk ← arrFromSeq 16 macKey
  let tag ← Gf128.gmac p mk
  let tb ← arrFromSeq 16 tag
  let tag ← Aes.xorBlock tb tagMix
  let tag ← arrFromSeq 16 tag
  .ok (c, tag)

/-- `aesgcm.rs:76-98` `decrypt_aes`. -/
def decryptWith (E : List U8 → M (List U8)) (iv aad cipherText tag : List U8) : M (Option (List U8)) := do
  let iv0 : List U8 := new 12
  let macKey ← Aes.ctrKeyblockWith E iv0 0
  let tagMix ← Aes.ctrKeyblockWith E iv 1
  let p ← padAadMsg aad cipherText
  let mk ← arrFromSeq 16 macKey
  let myTag ← Gf128.gmac p mk
  let tb ← arrFromSeq 16 myTag
  let myTag ← Aes.xorBlock tb tagMix
  let t ← arrFromSeq 16 tag
  if declassifyEq myTag t = true then do
    let c ← Aes.counterModeWith E iv 2 cipherText
    .ok (some c)
  else .ok none

theorem encrypt_instance (alg : Aes.Variant) (key iv aad m : List U8) :
    encrypt key iv aad m alg = encryptWith (fun x => Aes.encryptBlock key x (Aes.nk alg) (Aes.nr alg) alg) iv aad m := rfl

theorem decrypt_instance (alg : Aes.Variant) (key iv aad c t : List U8) :
    decrypt key iv aad c t alg = decryptWith (fun x => Aes.encryptBlock key x (Aes.nk alg) (Aes.nr alg) alg) iv aad c t := rfl

end Hacspec.AesGcm
