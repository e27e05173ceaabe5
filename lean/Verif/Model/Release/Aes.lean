import Verif.Model.Release.Seq
import Verif.Model.Aes

/-! # AES and AES-GCM in a release build

The functions of `Verif/Model/` that reach a `debug_assert!`, a checked sum or product, or a shift; the others are the
same in both builds and used as they are.
The products and sums with `nr` do not wrap: every caller in the crate passes 10 or 14. -/

namespace Hacspec.Release.Aes

open SecretInt hiding shl shrU shrS negS
open Release.Seq
open Hacspec.Seq (new fromSeq)
open Hacspec.Aes (subBytes shiftRows addRoundKey aesEncLast expansionWord Variant xorBlock nk nr)

/-- `aes.rs:68-74` `xtime`. -/
def xtime (x : U8) : M U8 := do
  let x1 ← shl x 1
  let x7 ← shrU x 7
  let x71 := x7 &&& 0x01#8
  let x711b := SecretInt.mul x71 0x1b#8
  .ok (x1 ^^^ x711b)

/-- `aes.rs:76-89` `mix_column`. -/
def mixColumn (c : Nat) (state : List U8) : M (List U8) := do
  let i0 := 4 * c
  let s0 ← idx state i0
  let s1 ← idx state (i0 + 1)
  let s2 ← idx state (i0 + 2)
  let s3 ← idx state (i0 + 3)
  let tmp := s0 ^^^ s1 ^^^ s2 ^^^ s3
  let t ← xtime (s0 ^^^ s1)
  let st ← setIdx state i0 (s0 ^^^ tmp ^^^ t)
  let t ← xtime (s1 ^^^ s2)
  let st ← setIdx st (i0 + 1) (s1 ^^^ tmp ^^^ t)
  let t ← xtime (s2 ^^^ s3)
  let st ← setIdx st (i0 + 2) (s2 ^^^ tmp ^^^ t)
  let t ← xtime (s3 ^^^ s0)
  setIdx st (i0 + 3) (s3 ^^^ tmp ^^^ t)

/-- `aes.rs:91-96` `mix_columns`. -/
def mixColumns (state : List U8) : M (List U8) := do
  let state ← mixColumn 0 state
  let state ← mixColumn 1 state
  let state ← mixColumn 2 state
  mixColumn 3 state

/-- `aes.rs:106-111` `aes_enc`. -/
def aesEnc (state roundKey : List U8) : M (List U8) := do
  let state ← subBytes state
  let state ← shiftRows state
  let state ← mixColumns state
  addRoundKey state roundKey

/-- `aes.rs:119-126` `rounds_aes`. -/
def roundsAes (state key : List U8) : M (List U8) := do
  let n ← numChunks key 16
  loop n (fun i out => do
    let kb ← getChunk key 16 i
    let rk ← arrFromSeq 16 kb.2
    aesEnc out rk) state

/-- `aes.rs:128-135` `block_cipher_aes`. -/
def blockCipher (input key : List U8) (nr : Nat) : M (List U8) := do
  let k0 ← arrFromSubRange 16 key 0 16
  let k ← fromSubRange key 16 (nr * 16)
  let kn ← arrFromSub 16 key (nr * 16) 16
  let state ← addRoundKey input k0
  let state ← roundsAes state k
  aesEncLast state kn

/-- `aes.rs:192-202` body of the loop of `key_expansion_aes`. -/
def expansionStep (nk nr : Nat) (alg : Variant) (j : Nat) (keyEx : List U8) : M (List U8) := do
  let i := j + alg.words
  let w0 ← arrFromSub 4 keyEx (4 * (i - alg.words)) 4
  let w1 ← arrFromSub 4 keyEx (4 * i - 4) 4
  let word ← expansionWord w0 w1 i nk nr
  update keyEx (4 * i) word

/-- `aes.rs:177-204` `key_expansion_aes`. -/
def keyExpansion (key : List U8) (nk nr : Nat) (alg : Variant) : M (List U8) := do
  let keyEx ← updateStart (new alg.size) key
  loop alg.iters (expansionStep nk nr alg) keyEx

/-- `aes.rs:206-209` `aes_encrypt_block`. -/
def encryptBlock (k input : List U8) (nk nr : Nat) (alg : Variant) : M (List U8) := do
  let keyEx ← keyExpansion k nk nr alg
  blockCipher input keyEx nr

/-- `aes.rs:211-213` `aes128_encrypt_block`. -/
def aes128EncryptBlock (k input : List U8) (nk nr : Nat) : M (List U8) := do
  let k ← fromSeq k
  encryptBlock k input nk nr .aes128

/-- `aes.rs:214-216` `aes256_encrypt_block`. -/
def aes256EncryptBlock (k input : List U8) (nk nr : Nat) : M (List U8) := do
  let k ← fromSeq k
  encryptBlock k input nk nr .aes256

/-- `aes.rs:218-223` `aes_ctr_keyblock`. -/
def ctrKeyblock (k n : List U8) (c : U32) (nk nr : Nat) (alg : Variant) : M (List U8) := do
  let input ← update (new 16) 0 n
  let cb ← wordToBeBytes c
  let input ← update input 12 cb
  encryptBlock k input nk nr alg

/-- `aes.rs:247-262` the two cases of the body of `aes_counter_mode`. -/
def ctrBranch (blockLen : Nat) (msgBlock keyBlock : List U8) (i : Nat) (st : U32 × List U8) : M (U32 × List U8) :=
  if msgBlock.length = 16 then do
    let b ← arrFromSeq 16 msgBlock
    let x ← xorBlock b keyBlock
    let out ← setChunk st.2 16 i x
    .ok (SecretInt.add st.1 1, out)
  else do
    let last ← updateStart (new 16) msgBlock
    let x ← xorBlock last keyBlock
    let x ← subr x 0 blockLen
    let out ← setChunk st.2 16 i x
    .ok (st.1, out)

/-- `aes.rs:244-263` body of the loop of `aes_counter_mode`; the state is `(ctr, blocks_out)`. -/
def ctrStep (key nonce msg : List U8) (nk nr : Nat) (alg : Variant) (i : Nat) (st : U32 × List U8) :
    M (U32 × List U8) := do
  let c ← getChunk msg 16 i
  let keyBlock ← ctrKeyblock key nonce st.1 nk nr alg
  ctrBranch c.1 c.2 keyBlock i st

/-- `aes.rs:233-265` `aes_counter_mode`. -/
def counterMode (key nonce : List U8) (counter : U32) (msg : List U8) (nk nr : Nat) (alg : Variant) : M (List U8) := do
  let n ← numChunks msg 16
  let st ← loop n (ctrStep key nonce msg nk nr alg) (counter, new msg.length)
  .ok st.2

/-- `aes.rs:288-294` `aes_encrypt` and `aes_decrypt`, whose bodies are the same. -/
def encrypt (key nonce : List U8) (counter : U32) (msg : List U8) (alg : Variant) : M (List U8) :=
  counterMode key nonce counter msg (nk alg) (nr alg) alg

/-- `aes.rs:296-308` `aes128_encrypt`, `aes128_decrypt`, `aes256_encrypt`, `aes256_decrypt`. -/
def encryptKey (key nonce : List U8) (counter : U32) (msg : List U8) (alg : Variant) : M (List U8) := do
  let k ← fromSeq key
  encrypt k nonce counter msg alg


end Hacspec.Release.Aes

namespace Hacspec.Release.Gf128

open SecretInt hiding shl shrU shrS negS
open Release.Seq hiding update
open Hacspec.Seq (new wordFromBeBytes)
open Hacspec.Gf128 (irred fadd)

/-- `gf128.rs:24-33` body of the loop of `fmul`; the state is `(res, sh)`. -/
def fmulStep (y : U128) (i : Nat) (st : U128 × U128) : M (U128 × U128) := do
  let b ← shl (1#128) (127 - i)
  let res := if declassify (y &&& b) ≠ 0#128 then st.1 ^^^ st.2 else st.1
  let s ← shrU st.2 1
  .ok (res, if declassify (st.2 &&& 1#128) ≠ 0#128 then s ^^^ irred else s)

/-- `gf128.rs:21-35` `fmul`. -/
def fmul (x y : U128) : M U128 := do
  let st ← loop 128 (fmulStep y) (0#128, x)
  .ok st.1

/-- `gf128.rs:40-42` `encode`. -/
def encode (block : List U8) : M U128 := do
  let b ← arrFromSeq 16 block
  wordFromBeBytes 128 b

/-- `gf128.rs:44-46` `decode`. -/
def decode (e : U128) : M (List U8) := do
  let b ← wordToBeBytes e
  arrFromSeq 16 b

/-- `gf128.rs:49-51` `update`. -/
def update (r : U128) (block : List U8) (acc : U128) : M U128 := do
  let e ← encode block
  fmul (fadd e acc) r

/-- `gf128.rs:58-63` body of the loop of `poly`. -/
def polyStep (msg : List U8) (r : U128) (i : Nat) (acc : U128) : M U128 := do
  let k := i * 16
  let s ← subr msg k (k + 16)
  let b ← updateStart (new 16) s
  update r b acc

/-- `gf128.rs:64-69` the incomplete last block. -/
def polyLast (msg : List U8) (r : U128) (acc : U128) : M U128 :=
  let n := msg.length / 16
  let rem := msg.length % 16
  if rem ≠ 0 then do
    let b ← updateSub (new 16) 0 msg (n * 16) rem
    update r b acc
  else .ok acc

/-- `gf128.rs:53-71` `poly`. -/
def poly (msg : List U8) (r : U128) : M U128 := do
  let acc ← loop (msg.length / 16) (polyStep msg r) 0#128
  polyLast msg r acc

/-- `gf128.rs:73-78` `gmac`. -/
def gmac (text k : List U8) : M (List U8) := do
  let s : List U8 := new 16
  let kb ← arrFromSeq 16 k
  let r ← encode kb
  let a ← poly text r
  let es ← encode s
  let d ← decode (fadd a es)
  arrFromSeq 16 d


end Hacspec.Release.Gf128

namespace Hacspec.Release.AesGcm

open SecretInt hiding shl shrU shrS negS
open Release.Seq
open Hacspec.Seq (new fromSeq declassifyEq)
open Hacspec.AesGcm (padLen)

/-- `aesgcm.rs:11-36` `pad_aad_msg`; the lengths in bits are computed modulo `2^64`. -/
def padAadMsg (aad msg : List U8) : M (List U8) := do
  let padAad := padLen aad.length
  let padMsg := padLen msg.length
  let p ← update (new (padAad + padMsg + 16)) 0 aad
  let p ← update p padAad msg
  let la ← wordToBeBytes (SecretInt.mul (BitVec.ofNat 64 aad.length) 8#64)
  let p ← update p (padAad + padMsg) la
  let lm ← wordToBeBytes (SecretInt.mul (BitVec.ofNat 64 msg.length) 8#64)
  update p (padAad + padMsg + 8) lm

/-- `aesgcm.rs:38-56` `encrypt_aes`. -/
def encrypt (key iv aad msg : List U8) (alg : Aes.Variant) : M (List U8 × List U8) := do
  let iv0 : List U8 := new 12
  let macKey ← Aes.ctrKeyblock key iv0 0 (Aes.nk alg) (Aes.nr alg) alg
  let tagMix ← Aes.ctrKeyblock key iv 1 (Aes.nk alg) (Aes.nr alg) alg
  let c ← Aes.encrypt key iv 2 msg alg
  let p ← padAadMsg aad c
  let mk ← arrFromSeq 16 macKey
  let tag ← Gf128.gmac p mk
  let tb ← arrFromSeq 16 tag
  let tag ← Aes.xorBlock tb tagMix
  let tag ← arrFromSeq 16 tag
  .ok (c, tag)

/-- `aesgcm.rs:58-74` `encrypt_aes128`, `encrypt_aes256`. -/
def encryptKey (key iv aad msg : List U8) (alg : Aes.Variant) : M (List U8 × List U8) := do
  let k ← fromSeq key
  encrypt k iv aad msg alg

/-- `aesgcm.rs:76-98` `decrypt_aes`; `none` is `Err("Mac verification failed")`. -/
def decrypt (key iv aad cipherText tag : List U8) (alg : Aes.Variant) : M (Option (List U8)) := do
  let iv0 : List U8 := new 12
  let macKey ← Aes.ctrKeyblock key iv0 0 (Aes.nk alg) (Aes.nr alg) alg
  let tagMix ← Aes.ctrKeyblock key iv 1 (Aes.nk alg) (Aes.nr alg) alg
  let p ← padAadMsg aad cipherText
  let mk ← arrFromSeq 16 macKey
  let myTag ← Gf128.gmac p mk
  let tb ← arrFromSeq 16 myTag
  let myTag ← Aes.xorBlock tb tagMix
  let t ← arrFromSeq 16 tag
  if declassifyEq myTag t = true then do
    let c ← Aes.encrypt key iv 2 cipherText alg
    .ok (some c)
  else .ok none

/-- `aesgcm.rs:100-118` `decrypt_aes128`, `decrypt_aes256`. -/
def decryptKey (key iv aad cipherText tag : List U8) (alg : Aes.Variant) : M (Option (List U8)) := do
  let k ← fromSeq key
  decrypt k iv aad cipherText tag alg


end Hacspec.Release.AesGcm
