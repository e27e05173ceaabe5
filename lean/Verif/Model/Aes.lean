import Verif.Model.Seq

/-! # AES and AES-GCM: `spec-examples/src/aes_gcm/{aes,gf128,aesgcm}.rs` -/

namespace Hacspec.Aes

open SecretInt Hacspec.Seq

/-- `aes.rs:22-39` `SBOX`. -/
def sbox : List U8 :=
  [0x63, 0x7c, 0x77, 0x7b, 0xf2, 0x6b, 0x6f, 0xc5, 0x30, 0x01, 0x67, 0x2b, 0xfe, 0xd7, 0xab, 0x76,
   0xca, 0x82, 0xc9, 0x7d, 0xfa, 0x59, 0x47, 0xf0, 0xad, 0xd4, 0xa2, 0xaf, 0x9c, 0xa4, 0x72, 0xc0,
   0xb7, 0xfd, 0x93, 0x26, 0x36, 0x3f, 0xf7, 0xcc, 0x34, 0xa5, 0xe5, 0xf1, 0x71, 0xd8, 0x31, 0x15,
   0x04, 0xc7, 0x23, 0xc3, 0x18, 0x96, 0x05, 0x9a, 0x07, 0x12, 0x80, 0xe2, 0xeb, 0x27, 0xb2, 0x75,
   0x09, 0x83, 0x2c, 0x1a, 0x1b, 0x6e, 0x5a, 0xa0, 0x52, 0x3b, 0xd6, 0xb3, 0x29, 0xe3, 0x2f, 0x84,
   0x53, 0xd1, 0x00, 0xed, 0x20, 0xfc, 0xb1, 0x5b, 0x6a, 0xcb, 0xbe, 0x39, 0x4a, 0x4c, 0x58, 0xcf,
   0xd0, 0xef, 0xaa, 0xfb, 0x43, 0x4d, 0x33, 0x85, 0x45, 0xf9, 0x02, 0x7f, 0x50, 0x3c, 0x9f, 0xa8,
   0x51, 0xa3, 0x40, 0x8f, 0x92, 0x9d, 0x38, 0xf5, 0xbc, 0xb6, 0xda, 0x21, 0x10, 0xff, 0xf3, 0xd2,
   0xcd, 0x0c, 0x13, 0xec, 0x5f, 0x97, 0x44, 0x17, 0xc4, 0xa7, 0x7e, 0x3d, 0x64, 0x5d, 0x19, 0x73,
   0x60, 0x81, 0x4f, 0xdc, 0x22, 0x2a, 0x90, 0x88, 0x46, 0xee, 0xb8, 0x14, 0xde, 0x5e, 0x0b, 0xdb,
   0xe0, 0x32, 0x3a, 0x0a, 0x49, 0x06, 0x24, 0x5c, 0xc2, 0xd3, 0xac, 0x62, 0x91, 0x95, 0xe4, 0x79,
   0xe7, 0xc8, 0x37, 0x6d, 0x8d, 0xd5, 0x4e, 0xa9, 0x6c, 0x56, 0xf4, 0xea, 0x65, 0x7a, 0xae, 0x08,
   0xba, 0x78, 0x25, 0x2e, 0x1c, 0xa6, 0xb4, 0xc6, 0xe8, 0xdd, 0x74, 0x1f, 0x4b, 0xbd, 0x8b, 0x8a,
   0x70, 0x3e, 0xb5, 0x66, 0x48, 0x03, 0xf6, 0x0e, 0x61, 0x35, 0x57, 0xb9, 0x86, 0xc1, 0x1d, 0x9e,
   0xe1, 0xf8, 0x98, 0x11, 0x69, 0xd9, 0x8e, 0x94, 0x9b, 0x1e, 0x87, 0xe9, 0xce, 0x55, 0x28, 0xdf,
   0x8c, 0xa1, 0x89, 0x0d, 0xbf, 0xe6, 0x42, 0x68, 0x41, 0x99, 0x2d, 0x0f, 0xb0, 0x54, 0xbb, 0x16]

/-- `aes.rs:41-43` `RCON`. -/
def rcon : List U8 :=
  [0x8d, 0x01, 0x02, 0x04, 0x08, 0x10, 0x20, 0x40, 0x80, 0x1b, 0x36, 0x6c, 0xd8, 0xab, 0x4d]

/-- `SBOX[U8::declassify(x)]`. -/
def subByte (x : U8) : M U8 := idx sbox (declassify x).toNat

/-- `aes.rs:45-51` `sub_bytes`. -/
def subBytes (state : List U8) : M (List U8) :=
  loop 16 (fun i st => do
    let x ← idx state i
    let s ← subByte x
    setIdx st i s) state

/-- `aes.rs:53-60` `shift_row`. -/
def shiftRow (i shift : Nat) (state : List U8) : M (List U8) := do
  let x ← idx state (i + 4 * (shift % 4))
  let out ← setIdx state i x
  let x ← idx state (i + 4 * ((shift + 1) % 4))
  let out ← setIdx out (i + 4) x
  let x ← idx state (i + 4 * ((shift + 2) % 4))
  let out ← setIdx out (i + 8) x
  let x ← idx state (i + 4 * ((shift + 3) % 4))
  setIdx out (i + 12) x

/-- `aes.rs:62-66` `shift_rows`. -/
def shiftRows (state : List U8) : M (List U8) := do
  let state ← shiftRow 1 1 state
  let state ← shiftRow 2 2 state
  shiftRow 3 3 state

/-- `aes.rs:68-74` `xtime`. -/
def xtime (x : U8) : M U8 := do
  let x1 ← shl x 1
  let x7 ← shrU x 7
  let x71 := x7 &&& 0x01#8
  let x711b := SecretInt.mul x71 0x1b#8
  .ok (x1 ^^^ x711b)

/-- `aes.rs:76-89` `mix_column`. -/
def mixColumn (c : Nat) (state : List U8) : M (List U8) := do
  let i0 := 4 * c
  let s0 ← idx state i0
  let s1 ← idx state (i0 + 1)
  let s2 ← idx state (i0 + 2)
  let s3 ← idx state (i0 + 3)
  let tmp := s0 ^^^ s1 ^^^ s2 ^^^ s3
  let t ← xtime (s0 ^^^ s1)
  let st ← setIdx state i0 (s0 ^^^ tmp ^^^ t)
  let t ← xtime (s1 ^^^ s2)
  let st ← setIdx st (i0 + 1) (s1 ^^^ tmp ^^^ t)
  let t ← xtime (s2 ^^^ s3)
  let st ← setIdx st (i0 + 2) (s2 ^^^ tmp ^^^ t)
  let t ← xtime (s3 ^^^ s0)
  setIdx st (i0 + 3) (s3 ^^^ tmp ^^^ t)

/-- `aes.rs:91-96` `mix_columns`. -/
def mixColumns (state : List U8) : M (List U8) := do
  let state ← mixColumn 0 state
  let state ← mixColumn 1 state
  let state ← mixColumn 2 state
  mixColumn 3 state

/-- `aes.rs:98-104` `add_round_key`. -/
def addRoundKey (state key : List U8) : M (List U8) :=
  loop 16 (fun i out => do
    let x ← idx out i
    let k ← idx key i
    setIdx out i (x ^^^ k)) state

/-- `aes.rs:106-111` `aes_enc`. -/
def aesEnc (state roundKey : List U8) : M (List U8) := do
  let state ← subBytes state
  let state ← shiftRows state
  let state ← mixColumns state
  addRoundKey state roundKey

/-- `aes.rs:113-117` `aes_enc_last`. -/
def aesEncLast (state roundKey : List U8) : M (List U8) := do
  let state ← subBytes state
  let state ← shiftRows state
  addRoundKey state roundKey

/-- `aes.rs:119-126` `rounds_aes`. -/
def roundsAes (state key : List U8) : M (List U8) := do
  let n ← numChunks key 16
  loop n (fun i out => do
    let kb ← getChunk key 16 i
    let rk ← arrFromSeq 16 kb.2
    aesEnc out rk) state

/-- `aes.rs:128-135` `block_cipher_aes`. -/
def blockCipher (input key : List U8) (nr : Nat) : M (List U8) := do
  let k0 ← arrFromSubRange 16 key 0 16
  let k ← fromSubRange key 16 (nr * 16)
  let kn ← arrFromSub 16 key (nr * 16) 16
  let state ← addRoundKey input k0
  let state ← roundsAes state k
  aesEncLast state kn

/-- `aes.rs:137-139` `rotate_word`. -/
def rotateWord (w : List U8) : M (List U8) := do
  let w1 ← idx w 1
  let w2 ← idx w 2
  let w3 ← idx w 3
  let w0 ← idx w 0
  .ok [w1, w2, w3, w0]

/-- `aes.rs:141-148` `sub_word`. -/
def subWord (w : List U8) : M (List U8) := do
  let w0 ← idx w 0
  let s0 ← subByte w0
  let w1 ← idx w 1
  let s1 ← subByte w1
  let w2 ← idx w 2
  let s2 ← subByte w2
  let w3 ← idx w 3
  let s3 ← subByte w3
  .ok [s0, s1, s2, s3]

/-- `aes.rs:150-155` `aes_keygen_assist`. -/
def keygenAssist (w : List U8) (rc : U8) : M (List U8) := do
  let k ← rotateWord w
  let k ← subWord k
  let k0 ← idx k 0
  setIdx k 0 (k0 ^^^ rc)

/-- `aes.rs:159-164` the case distinction of `key_expansion_word`; `i % nk` panics for `nk = 0`. -/
def expansionCore (w1 : List U8) (i nk : Nat) : M (List U8) := do
  require (nk ≠ 0)
  if i % nk = 0 then do
    let rc ← idx rcon (i / nk)
    keygenAssist w1 rc
  else if nk > 6 ∧ i % nk = 4 then subWord w1
  else .ok w1

/-- `aes.rs:157-169` `key_expansion_word`. Simplified: `4 * (nr + 1)` is computed in `Nat`; where it
would overflow `usize` the code panics here and the model panics in `blockCipher` instead. -/
def expansionWord (w0 w1 : List U8) (i nk nr : Nat) : M (List U8) := do
  require (i < 4 * (nr + 1))
  let k ← expansionCore w1 i nk
  loop 4 (fun i k => do
    let x ← idx k i
    let y ← idx w0 i
    setIdx k i (x ^^^ y)) k

/-- `aes.rs:172-175` `AesVariant`. -/
inductive Variant where
  | aes128
  | aes256
  deriving DecidableEq, Repr

/-- `aes.rs:178-181` the size of the expanded key. -/
def Variant.size : Variant → Nat
  | .aes128 => 176
  | .aes256 => 240

/-- `aes.rs:184-187` the number of computed words. -/
def Variant.iters : Variant → Nat
  | .aes128 => 40
  | .aes256 => 52

/-- `aes.rs:188-191` the number of words of the key. -/
def Variant.words : Variant → Nat
  | .aes128 => 4
  | .aes256 => 8

/-- `aes.rs:192-202` body of the loop of `key_expansion_aes`. -/
def expansionStep (nk nr : Nat) (alg : Variant) (j : Nat) (keyEx : List U8) : M (List U8) := do
  let i := j + alg.words
  let w0 ← arrFromSub 4 keyEx (4 * (i - alg.words)) 4
  let w1 ← arrFromSub 4 keyEx (4 * i - 4) 4
  let word ← expansionWord w0 w1 i nk nr
  update keyEx (4 * i) word

/-- `aes.rs:177-204` `key_expansion_aes`. -/
def keyExpansion (key : List U8) (nk nr : Nat) (alg : Variant) : M (List U8) := do
  let keyEx ← updateStart (new alg.size) key
  loop alg.iters (expansionStep nk nr alg) keyEx

/-- `aes.rs:206-209` `aes_encrypt_block`. -/
def encryptBlock (k input : List U8) (nk nr : Nat) (alg : Variant) : M (List U8) := do
  let keyEx ← keyExpansion k nk nr alg
  blockCipher input keyEx nr

/-- `aes.rs:211-213` `aes128_encrypt_block`. -/
def aes128EncryptBlock (k input : List U8) (nk nr : Nat) : M (List U8) := do
  let k ← fromSeq k
  encryptBlock k input nk nr .aes128

/-- `aes.rs:214-216` `aes256_encrypt_block`. -/
def aes256EncryptBlock (k input : List U8) (nk nr : Nat) : M (List U8) := do
  let k ← fromSeq k
  encryptBlock k input nk nr .aes256

/-- `aes.rs:218-223` `aes_ctr_keyblock`. -/
def ctrKeyblock (k n : List U8) (c : U32) (nk nr : Nat) (alg : Variant) : M (List U8) := do
  let input ← update (new 16) 0 n
  let cb ← wordToBeBytes c
  let input ← update input 12 cb
  encryptBlock k input nk nr alg

/-- `aes.rs:225-231` `xor_block`. -/
def xorBlock (block keyblock : List U8) : M (List U8) :=
  loop 16 (fun i out => do
    let x ← idx out i
    let k ← idx keyblock i
    setIdx out i (x ^^^ k)) block

/-- `aes.rs:247-262` the two cases of the body of `aes_counter_mode`. -/
def ctrBranch (blockLen : Nat) (msgBlock keyBlock : List U8) (i : Nat) (st : U32 × List U8) : M (U32 × List U8) :=
  if msgBlock.length = 16 then do
    let b ← arrFromSeq 16 msgBlock
    let x ← xorBlock b keyBlock
    let out ← setChunk st.2 16 i x
    .ok (SecretInt.add st.1 1, out)
  else do
    let last ← updateStart (new 16) msgBlock
    let x ← xorBlock last keyBlock
    let x ← subr x 0 blockLen
    let out ← setChunk st.2 16 i x
    .ok (st.1, out)

/-- `aes.rs:244-263` body of the loop of `aes_counter_mode`; the state is `(ctr, blocks_out)`. -/
def ctrStep (key nonce msg : List U8) (nk nr : Nat) (alg : Variant) (i : Nat) (st : U32 × List U8) :
    M (U32 × List U8) := do
  let c ← getChunk msg 16 i
  let keyBlock ← ctrKeyblock key nonce st.1 nk nr alg
  ctrBranch c.1 c.2 keyBlock i st

/-- `aes.rs:233-265` `aes_counter_mode`. -/
def counterMode (key nonce : List U8) (counter : U32) (msg : List U8) (nk nr : Nat) (alg : Variant) : M (List U8) := do
  let n ← numChunks msg 16
  let st ← loop n (ctrStep key nonce msg nk nr alg) (counter, new msg.length)
  .ok st.2

/-- `aes.rs:274-279` `nk`. -/
def nk : Variant → Nat
  | .aes128 => 4
  | .aes256 => 8

/-- `aes.rs:281-286` `nr`. -/
def nr : Variant → Nat
  | .aes128 => 10
  | .aes256 => 14

/-- `aes.rs:288-294` `aes_encrypt` and `aes_decrypt`, whose bodies are the same. -/
def encrypt (key nonce : List U8) (counter : U32) (msg : List U8) (alg : Variant) : M (List U8) :=
  counterMode key nonce counter msg (nk alg) (nr alg) alg

/-- `aes.rs:296-308` `aes128_encrypt`, `aes128_decrypt`, `aes256_encrypt`, `aes256_decrypt`. -/
def encryptKey (key nonce : List U8) (counter : U32) (msg : List U8) (alg : Variant) : M (List U8) := do
  let k ← fromSeq key
  encrypt k nonce counter msg alg

end Hacspec.Aes

namespace Hacspec.Gf128

open SecretInt Hacspec.Seq

/-- `gf128.rs:15` `IRRED`. -/
def irred : U128 := 0xE1000000000000000000000000000000#128

/-- `gf128.rs:17-19` `fadd`. -/
def fadd (x y : U128) : U128 := x ^^^ y

/-- `gf128.rs:24-33` body of the loop of `fmul`; the state is `(res, sh)`. -/
def fmulStep (y : U128) (i : Nat) (st : U128 × U128) : M (U128 × U128) := do
  let b ← shl (1#128) (127 - i)
  let res := if declassify (y &&& b) ≠ 0#128 then st.1 ^^^ st.2 else st.1
  let s ← shrU st.2 1
  .ok (res, if declassify (st.2 &&& 1#128) ≠ 0#128 then s ^^^ irred else s)

/-- `gf128.rs:21-35` `fmul`. -/
def fmul (x y : U128) : M U128 := do
  let st ← loop 128 (fmulStep y) (0#128, x)
  .ok st.1

/-- `gf128.rs:40-42` `encode`. -/
def encode (block : List U8) : M U128 := do
  let b ← arrFromSeq 16 block
  wordFromBeBytes 128 b

/-- `gf128.rs:44-46` `decode`. -/
def decode (e : U128) : M (List U8) := do
  let b ← wordToBeBytes e
  arrFromSeq 16 b

/-- `gf128.rs:49-51` `update`. -/
def update (r : U128) (block : List U8) (acc : U128) : M U128 := do
  let e ← encode block
  fmul (fadd e acc) r

/-- `gf128.rs:58-63` body of the loop of `poly`. -/
def polyStep (msg : List U8) (r : U128) (i : Nat) (acc : U128) : M U128 := do
  let k := i * 16
  let s ← subr msg k (k + 16)
  let b ← updateStart (new 16) s
  update r b acc

/-- `gf128.rs:64-69` the incomplete last block. -/
def polyLast (msg : List U8) (r : U128) (acc : U128) : M U128 :=
  let n := msg.length / 16
  let rem := msg.length % 16
  if rem ≠ 0 then do
    let b ← updateSub (new 16) 0 msg (n * 16) rem
    update r b acc
  else .ok acc

/-- `gf128.rs:53-71` `poly`. -/
def poly (msg : List U8) (r : U128) : M U128 := do
  let acc ← loop (msg.length / 16) (polyStep msg r) 0#128
  polyLast msg r acc

/-- `gf128.rs:73-78` `gmac`. -/
def gmac (text k : List U8) : M (List U8) := do
  let s : List U8 := new 16
  let kb ← arrFromSeq 16 k
  let r ← encode kb
  let a ← poly text r
  let es ← encode s
  let d ← decode (fadd a es)
  arrFromSeq 16 d

end Hacspec.Gf128

namespace Hacspec.AesGcm

open SecretInt Hacspec.Seq

/-- `aesgcm.rs:14-23` a length rounded up to a multiple of 16. -/
def padLen (l : Nat) : Nat := if l % 16 = 0 then l else l + (16 - l % 16)

/-- `aesgcm.rs:11-36` `pad_aad_msg`; the lengths in bits are computed modulo `2^64`. -/
def padAadMsg (aad msg : List U8) : M (List U8) := do
  let padAad := padLen aad.length
  let padMsg := padLen msg.length
  let p ← update (new (padAad + padMsg + 16)) 0 aad
  let p ← update p padAad msg
  let la ← wordToBeBytes (SecretInt.mul (BitVec.ofNat 64 aad.length) 8#64)
  let p ← update p (padAad + padMsg) la
  let lm ← wordToBeBytes (SecretInt.mul (BitVec.ofNat 64 msg.length) 8#64)
  update p (padAad + padMsg + 8) lm

/-- `aesgcm.rs:38-56` `encrypt_aes`. -/
def encrypt (key iv aad msg : List U8) (alg : Aes.Variant) : M (List U8 × List U8) := do
  let iv0 : List U8 := new 12
  let macKey ← Aes.ctrKeyblock key iv0 0 (Aes.nk alg) (Aes.nr alg) alg
  let tagMix ← Aes.ctrKeyblock key iv 1 (Aes.nk alg) (Aes.nr alg) alg
  let c ← Aes.encrypt key iv 2 msg alg
  let p ← padAadMsg aad c
  let mk ← arrFromSeq 16 macKey
  let tag ← Gf128.gmac p mk
  let tb ← arrFromSeq 16 tag
  let tag ← Aes.xorBlock tb tagMix
  let tag ← arrFromSeq 16 tag
  .ok (c, tag)

/-- `aesgcm.rs:58-74` `encrypt_aes128`, `encrypt_aes256`. -/
def encryptKey (key iv aad msg : List U8) (alg : Aes.Variant) : M (List U8 × List U8) := do
  let k ← fromSeq key
  encrypt k iv aad msg alg

/-- `aesgcm.rs:76-98` `decrypt_aes`; `none` is `Err("Mac verification failed")`. -/
def decrypt (key iv aad cipherText tag : List U8) (alg : Aes.Variant) : M (Option (List U8)) := do
  let iv0 : List U8 := new 12
  let macKey ← Aes.ctrKeyblock key iv0 0 (Aes.nk alg) (Aes.nr alg) alg
  let tagMix ← Aes.ctrKeyblock key iv 1 (Aes.nk alg) (Aes.nr alg) alg
  let p ← padAadMsg aad cipherText
  let mk ← arrFromSeq 16 macKey
  let myTag ← Gf128.gmac p mk
  let tb ← arrFromSeq 16 myTag
  let myTag ← Aes.xorBlock tb tagMix
  let t ← arrFromSeq 16 tag
  if declassifyEq myTag t = true then do
    let c ← Aes.encrypt key iv 2 cipherText alg
    .ok (some c)
  else .ok none

/-- `aesgcm.rs:100-118` `decrypt_aes128`, `decrypt_aes256`. -/
def decryptKey (key iv aad cipherText tag : List U8) (alg : Aes.Variant) : M (Option (List U8)) := do
  let k ← fromSeq key
  decrypt k iv aad cipherText tag alg

end Hacspec.AesGcm
