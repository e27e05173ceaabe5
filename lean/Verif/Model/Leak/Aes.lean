import Verif.Model.Leak.Seq
import Verif.Model.Aes

/-! # `Verif/Model/Aes.lean`, with the visible events

The comparison of tags is one branch on its outcome; how long the comparison takes is not modelled. -/

namespace Hacspec.Leak.Aes

open SecretInt Leak.Seq
open Hacspec.Seq (new)
open Hacspec.Aes (sbox rcon Variant nk nr)

/-- `SBOX[U8::declassify(x)]`. -/
def subByte (x : U8) : L U8 := idx sbox (declassify x).toNat

/-- `aes.rs:45-51` `sub_bytes`. -/
def subBytes (state : List U8) : L (List U8) :=
  loop 16 (fun i st => do
    let x ← idx state i
    let s ← subByte x
    setIdx st i s) state

/-- `aes.rs:53-60` `shift_row`. -/
def shiftRow (i shift : Nat) (state : List U8) : L (List U8) := do
  let x ← idx state (i + 4 * (shift % 4))
  let out ← setIdx state i x
  let x ← idx state (i + 4 * ((shift + 1) % 4))
  let out ← setIdx out (i + 4) x
  let x ← idx state (i + 4 * ((shift + 2) % 4))
  let out ← setIdx out (i + 8) x
  let x ← idx state (i + 4 * ((shift + 3) % 4))
  setIdx out (i + 12) x

/-- `aes.rs:62-66` `shift_rows`. -/
def shiftRows (state : List U8) : L (List U8) := do
  let state ← shiftRow 1 1 state
  let state ← shiftRow 2 2 state
  shiftRow 3 3 state

/-- `aes.rs:68-74` `xtime`. -/
def xtime (x : U8) : L U8 := do
  let x1 ← lift (shl x 1)
  let x7 ← lift (shrU x 7)
  let x71 := x7 &&& 0x01#8
  let x711b := SecretInt.mul x71 0x1b#8
  .ok (x1 ^^^ x711b)

/-- `aes.rs:76-89` `mix_column`. -/
def mixColumn (c : Nat) (state : List U8) : L (List U8) := do
  let i0 := 4 * c
  let s0 ← idx state i0
  let s1 ← idx state (i0 + 1)
  let s2 ← idx state (i0 + 2)
  let s3 ← idx state (i0 + 3)
  let tmp := s0 ^^^ s1 ^^^ s2 ^^^ s3
  let t ← xtime (s0 ^^^ s1)
  let st ← setIdx state i0 (s0 ^^^ tmp ^^^ t)
  let t ← xtime (s1 ^^^ s2)
  let st ← setIdx st (i0 + 1) (s1 ^^^ tmp ^^^ t)
  let t ← xtime (s2 ^^^ s3)
  let st ← setIdx st (i0 + 2) (s2 ^^^ tmp ^^^ t)
  let t ← xtime (s3 ^^^ s0)
  setIdx st (i0 + 3) (s3 ^^^ tmp ^^^ t)

/-- `aes.rs:91-96` `mix_columns`. -/
def mixColumns (state : List U8) : L (List U8) := do
  let state ← mixColumn 0 state
  let state ← mixColumn 1 state
  let state ← mixColumn 2 state
  mixColumn 3 state

/-- `aes.rs:98-104` `add_round_key`. -/
def addRoundKey (state key : List U8) : L (List U8) :=
  loop 16 (fun i out => do
    let x ← idx out i
    let k ← idx key i
    setIdx out i (x ^^^ k)) state

/-- `aes.rs:106-111` `aes_enc`. -/
def aesEnc (state roundKey : List U8) : L (List U8) := do
  let state ← subBytes state
  let state ← shiftRows state
  let state ← mixColumns state
  addRoundKey state roundKey

/-- `aes.rs:113-117` `aes_enc_last`. -/
def aesEncLast (state roundKey : List U8) : L (List U8) := do
  let state ← subBytes state
  let state ← shiftRows state
  addRoundKey state roundKey

/-- `aes.rs:119-126` `rounds_aes`. -/
def roundsAes (state key : List U8) : L (List U8) := do
  let n ← numChunks key 16
  loop n (fun i out => do
    let kb ← getChunk key 16 i
    let rk ← arrFromSeq 16 kb.2
    aesEnc out rk) state

/-- `aes.rs:128-135` `block_cipher_aes`. -/
def blockCipher (input key : List U8) (nr : Nat) : L (List U8) := do
  let k0 ← arrFromSubRange 16 key 0 16
  let k ← fromSubRange key 16 (nr * 16)
  let kn ← arrFromSub 16 key (nr * 16) 16
  let state ← addRoundKey input k0
  let state ← roundsAes state k
  aesEncLast state kn

/-- `aes.rs:137-139` `rotate_word`. -/
def rotateWord (w : List U8) : L (List U8) := do
  let w1 ← idx w 1
  let w2 ← idx w 2
  let w3 ← idx w 3
  let w0 ← idx w 0
  .ok [w1, w2, w3, w0]

/-- `aes.rs:141-148` `sub_word`. -/
def subWord (w : List U8) : L (List U8) := do
  let w0 ← idx w 0
  let s0 ← subByte w0
  let w1 ← idx w 1
  let s1 ← subByte w1
  let w2 ← idx w 2
  let s2 ← subByte w2
  let w3 ← idx w 3
  let s3 ← subByte w3
  .ok [s0, s1, s2, s3]

/-- `aes.rs:150-155` `aes_keygen_assist`. -/
def keygenAssist (w : List U8) (rc : U8) : L (List U8) := do
  let k ← rotateWord w
  let k ← subWord k
  let k0 ← idx k 0
  setIdx k 0 (k0 ^^^ rc)

/-- `aes.rs:159-164` the case distinction of `key_expansion_word`; `i % nk` panics for `nk = 0`. -/
def expansionCore (w1 : List U8) (i nk : Nat) : L (List U8) := do
  require (nk ≠ 0)
  branch (i % nk = 0)
    (do
      let rc ← idx rcon (i / nk)
      keygenAssist w1 rc)
    (branch (nk > 6 ∧ i % nk = 4) (subWord w1) (.ok w1))

/-- `aes.rs:157-169` `key_expansion_word`. Simplified: `4 * (nr + 1)` is computed in `Nat`; where it
would overflow `usize` the code panics here and the model panics in `blockCipher` instead. -/
def expansionWord (w0 w1 : List U8) (i nk nr : Nat) : L (List U8) := do
  require (i < 4 * (nr + 1))
  let k ← expansionCore w1 i nk
  loop 4 (fun i k => do
    let x ← idx k i
    let y ← idx w0 i
    setIdx k i (x ^^^ y)) k

/-- `aes.rs:192-202` body of the loop of `key_expansion_aes`. -/
def expansionStep (nk nr : Nat) (alg : Variant) (j : Nat) (keyEx : List U8) : L (List U8) := do
  let i := j + alg.words
  let w0 ← arrFromSub 4 keyEx (4 * (i - alg.words)) 4
  let w1 ← arrFromSub 4 keyEx (4 * i - 4) 4
  let word ← expansionWord w0 w1 i nk nr
  update keyEx (4 * i) word

/-- `aes.rs:177-204` `key_expansion_aes`. -/
def keyExpansion (key : List U8) (nk nr : Nat) (alg : Variant) : L (List U8) := do
  let keyEx ← updateStart (new alg.size) key
  loop alg.iters (expansionStep nk nr alg) keyEx

/-- `aes.rs:206-209` `aes_encrypt_block`. -/
def encryptBlock (k input : List U8) (nk nr : Nat) (alg : Variant) : L (List U8) := do
  let keyEx ← keyExpansion k nk nr alg
  blockCipher input keyEx nr

/-- `aes.rs:211-213` `aes128_encrypt_block`. -/
def aes128EncryptBlock (k input : List U8) (nk nr : Nat) : L (List U8) := do
  let k ← fromSeq k
  encryptBlock k input nk nr .aes128

/-- `aes.rs:214-216` `aes256_encrypt_block`. -/
def aes256EncryptBlock (k input : List U8) (nk nr : Nat) : L (List U8) := do
  let k ← fromSeq k
  encryptBlock k input nk nr .aes256

/-- `aes.rs:218-223` `aes_ctr_keyblock`. -/
def ctrKeyblock (k n : List U8) (c : U32) (nk nr : Nat) (alg : Variant) : L (List U8) := do
  let input ← update (new 16) 0 n
  let cb ← wordToBeBytes c
  let input ← update input 12 cb
  encryptBlock k input nk nr alg

/-- `aes.rs:225-231` `xor_block`. -/
def xorBlock (block keyblock : List U8) : L (List U8) :=
  loop 16 (fun i out => do
    let x ← idx out i
    let k ← idx keyblock i
    setIdx out i (x ^^^ k)) block

/-- `aes.rs:247-262` the two cases of the body of `aes_counter_mode`. -/
def ctrBranch (blockLen : Nat) (msgBlock keyBlock : List U8) (i : Nat) (st : U32 × List U8) : L (U32 × List U8) :=
  branch (msgBlock.length = 16)
    (do
      let b ← arrFromSeq 16 msgBlock
      let x ← xorBlock b keyBlock
      let out ← setChunk st.2 16 i x
      .ok (SecretInt.add st.1 1, out))
    (do
      let last ← updateStart (new 16) msgBlock
      let x ← xorBlock last keyBlock
      let x ← subr x 0 blockLen
      let out ← setChunk st.2 16 i x
      .ok (st.1, out))

/-- `aes.rs:244-263` body of the loop of `aes_counter_mode`; the state is `(ctr, blocks_out)`. -/
def ctrStep (key nonce msg : List U8) (nk nr : Nat) (alg : Variant) (i : Nat) (st : U32 × List U8) :
    L (U32 × List U8) := do
  let c ← getChunk msg 16 i
  let keyBlock ← ctrKeyblock key nonce st.1 nk nr alg
  ctrBranch c.1 c.2 keyBlock i st

/-- `aes.rs:233-265` `aes_counter_mode`. -/
def counterMode (key nonce : List U8) (counter : U32) (msg : List U8) (nk nr : Nat) (alg : Variant) : L (List U8) := do
  let n ← numChunks msg 16
  let st ← loop n (ctrStep key nonce msg nk nr alg) (counter, new msg.length)
  .ok st.2

/-- `aes.rs:288-294` `aes_encrypt` and `aes_decrypt`, whose bodies are the same. -/
def encrypt (key nonce : List U8) (counter : U32) (msg : List U8) (alg : Variant) : L (List U8) :=
  counterMode key nonce counter msg (nk alg) (nr alg) alg

/-- `aes.rs:296-308` `aes128_encrypt`, `aes128_decrypt`, `aes256_encrypt`, `aes256_decrypt`. -/
def encryptKey (key nonce : List U8) (counter : U32) (msg : List U8) (alg : Variant) : L (List U8) := do
  let k ← fromSeq key
  encrypt k nonce counter msg alg

end Hacspec.Leak.Aes

namespace Hacspec.Leak.Gf128

open SecretInt Leak.Seq
open Hacspec.Seq (new)
open Hacspec.Gf128 (irred fadd)

/-- `gf128.rs:24-33` body of the loop of `fmul`; the state is `(res, sh)`. -/
def fmulStep (y : U128) (i : Nat) (st : U128 × U128) : L (U128 × U128) := do
  let b ← lift (shl (1#128) (127 - i))
  let res ← branch (declassify (y &&& b) ≠ 0#128) (.ok (st.1 ^^^ st.2)) (.ok st.1)
  let s ← lift (shrU st.2 1)
  let sh ← branch (declassify (st.2 &&& 1#128) ≠ 0#128) (.ok (s ^^^ irred)) (.ok s)
  .ok (res, sh)

/-- `gf128.rs:21-35` `fmul`. -/
def fmul (x y : U128) : L U128 := do
  let st ← loop 128 (fmulStep y) (0#128, x)
  .ok st.1

/-- `gf128.rs:40-42` `encode`. -/
def encode (block : List U8) : L U128 := do
  let b ← arrFromSeq 16 block
  wordFromBeBytes 128 b

/-- `gf128.rs:44-46` `decode`. -/
def decode (e : U128) : L (List U8) := do
  let b ← wordToBeBytes e
  arrFromSeq 16 b

/-- `gf128.rs:49-51` `update`. -/
def update (r : U128) (block : List U8) (acc : U128) : L U128 := do
  let e ← encode block
  fmul (fadd e acc) r

/-- `gf128.rs:58-63` body of the loop of `poly`. -/
def polyStep (msg : List U8) (r : U128) (i : Nat) (acc : U128) : L U128 := do
  let k := i * 16
  let s ← subr msg k (k + 16)
  let b ← updateStart (new 16) s
  update r b acc

/-- `gf128.rs:64-69` the incomplete last block. -/
def polyLast (msg : List U8) (r : U128) (acc : U128) : L U128 :=
  let n := msg.length / 16
  let rem := msg.length % 16
  branch (rem ≠ 0)
    (do
      let b ← updateSub (new 16) 0 msg (n * 16) rem
      update r b acc)
    (.ok acc)

/-- `gf128.rs:53-71` `poly`. -/
def poly (msg : List U8) (r : U128) : L U128 := do
  let acc ← loop (msg.length / 16) (polyStep msg r) 0#128
  polyLast msg r acc

/-- `gf128.rs:73-78` `gmac`. -/
def gmac (text k : List U8) : L (List U8) := do
  let s : List U8 := new 16
  let kb ← arrFromSeq 16 k
  let r ← encode kb
  let a ← poly text r
  let es ← encode s
  let d ← decode (fadd a es)
  arrFromSeq 16 d

end Hacspec.Leak.Gf128

namespace Hacspec.Leak.AesGcm

open SecretInt Leak.Seq
open Hacspec.Seq (new declassifyEq)
open Hacspec.Aes (nk nr)

/-- `aesgcm.rs:14-23` a length rounded up to a multiple of 16. -/
def padLen (l : Nat) : L Nat := branch (l % 16 = 0) (.ok l) (.ok (l + (16 - l % 16)))

/-- `aesgcm.rs:11-36` `pad_aad_msg`; the lengths in bits are computed modulo `2^64`. -/
def padAadMsg (aad msg : List U8) : L (List U8) := do
  let padAad ← padLen aad.length
  let padMsg ← padLen msg.length
  let p ← update (new (padAad + padMsg + 16)) 0 aad
  let p ← update p padAad msg
  let la ← wordToBeBytes (SecretInt.mul (BitVec.ofNat 64 aad.length) 8#64)
  let p ← update p (padAad + padMsg) la
  let lm ← wordToBeBytes (SecretInt.mul (BitVec.ofNat 64 msg.length) 8#64)
  update p (padAad + padMsg + 8) lm

/-- `aesgcm.rs:38-56` `encrypt_aes`. -/
def encrypt (key iv aad msg : List U8) (alg : Hacspec.Aes.Variant) : L (List U8 × List U8) := do
  let iv0 : List U8 := new 12
  let macKey ← Aes.ctrKeyblock key iv0 0 (nk alg) (nr alg) alg
  let tagMix ← Aes.ctrKeyblock key iv 1 (nk alg) (nr alg) alg
  let c ← Aes.encrypt key iv 2 msg alg
  let p ← padAadMsg aad c
  let mk ← arrFromSeq 16 macKey
  let tag ← Gf128.gmac p mk
  let tb ← arrFromSeq 16 tag
  let tag ← Aes.xorBlock tb tagMix
  let tag ← arrFromSeq 16 tag
  .ok (c, tag)

/-- `aesgcm.rs:58-74` `encrypt_aes128`, `encrypt_aes256`. -/
def encryptKey (key iv aad msg : List U8) (alg : Hacspec.Aes.Variant) : L (List U8 × List U8) := do
  let k ← fromSeq key
  encrypt k iv aad msg alg

/-- `aesgcm.rs:76-98` `decrypt_aes`; `none` is `Err("Mac verification failed")`. -/
def decrypt (key iv aad cipherText tag : List U8) (alg : Hacspec.Aes.Variant) : L (Option (List U8)) := do
  let iv0 : List U8 := new 12
  let macKey ← Aes.ctrKeyblock key iv0 0 (nk alg) (nr alg) alg
  let tagMix ← Aes.ctrKeyblock key iv 1 (nk alg) (nr alg) alg
  let p ← padAadMsg aad cipherText
  let mk ← arrFromSeq 16 macKey
  let myTag ← Gf128.gmac p mk
  let tb ← arrFromSeq 16 myTag
  let myTag ← Aes.xorBlock tb tagMix
  let t ← arrFromSeq 16 tag
  branch (declassifyEq myTag t = true)
    (do
      let c ← Aes.encrypt key iv 2 cipherText alg
      .ok (some c))
    (.ok none)

/-- `aesgcm.rs:100-118` `decrypt_aes128`, `decrypt_aes256`. -/
def decryptKey (key iv aad cipherText tag : List U8) (alg : Hacspec.Aes.Variant) : L (Option (List U8)) := do
  let k ← fromSeq key
  decrypt k iv aad cipherText tag alg

end Hacspec.Leak.AesGcm
