import Verif.Model.VecInt
import Verif.Model.NatMod

/-! # ChaCha20, Poly1305 and their AEAD: `spec-examples/src/chacha20_poly1305/*.rs` -/

namespace Hacspec.ChaCha

open SecretInt Hacspec.Seq VecInt

/-- `chacha20.rs:11-17` body of the loop of `state_to_bytes`. -/
def stateToBytesStep (x : List U32) (i : Nat) (r : List U8) : M (List U8) := do
  let xi ← idx x i
  let bytes ← wordToBeBytes xi
  let b3 ← idx bytes 3
  let r ← setIdx r (i * 4) b3
  let b2 ← idx bytes 2
  let r ← setIdx r (i * 4 + 1) b2
  let b1 ← idx bytes 1
  let r ← setIdx r (i * 4 + 2) b1
  let b0 ← idx bytes 0
  setIdx r (i * 4 + 3) b0

/-- `chacha20.rs:9-19` `state_to_bytes`. -/
def stateToBytes (x : List U32) : M (List U8) := loop x.length (stateToBytesStep x) (new 64)

/-- `chacha20.rs:21-28` `line`. -/
def line (a b d s : Nat) (m : List U32) : M (List U32) := do
  let sa ← idx m a
  let sb ← idx m b
  let m ← setIdx m a (SecretInt.add sa sb)
  let sd ← idx m d
  let sa ← idx m a
  let m ← setIdx m d (sd ^^^ sa)
  let sd ← idx m d
  setIdx m d (rotl sd s)

/-- `chacha20.rs:30-35` `quarter_round`. -/
def quarterRound (a b c d : Nat) (state : List U32) : M (List U32) := do
  let state ← line a b d 16 state
  let state ← line c d b 12 state
  let state ← line a b d 8 state
  line c d b 7 state

/-- `chacha20.rs:37-47` `double_round`. -/
def doubleRound (state : List U32) : M (List U32) := do
  let state ← quarterRound 0 4 8 12 state
  let state ← quarterRound 1 5 9 13 state
  let state ← quarterRound 2 6 10 14 state
  let state ← quarterRound 3 7 11 15 state
  let state ← quarterRound 0 5 10 15 state
  let state ← quarterRound 1 6 11 12 state
  let state ← quarterRound 2 7 8 13 state
  quarterRound 3 4 9 14 state

/-- `U32_from_le_bytes(U32Word::from_sub_range(&key, a..b))` as in `chacha20.rs:55-66`. -/
def leWordAt (key : List U8) (a b : Nat) : M U32 := do
  let w ← arrFromSubRange 4 key a b
  wordFromLeBytes 32 w

/-- `chacha20.rs:49-68` `block_init`. -/
def blockInit (key : List U8) (ctr : U32) (iv : List U8) : M (List U32) := do
  let k0 ← leWordAt key 0 4
  let k1 ← leWordAt key 4 8
  let k2 ← leWordAt key 8 12
  let k3 ← leWordAt key 12 16
  let k4 ← leWordAt key 16 20
  let k5 ← leWordAt key 20 24
  let k6 ← leWordAt key 24 28
  let k7 ← leWordAt key 28 32
  let n0 ← leWordAt iv 0 4
  let n1 ← leWordAt iv 4 8
  let n2 ← leWordAt iv 8 12
  .ok [0x61707865, 0x3320646e, 0x79622d32, 0x6b206574, k0, k1, k2, k3, k4, k5, k6, k7, ctr, n0, n1, n2]

/-- `chacha20.rs:73-75` the rounds of `block_inner`. -/
def rounds (st : List U32) : M (List U32) := loop 10 (fun _ s => doubleRound s) st

/-- `chacha20.rs:70-80` `block_inner`. -/
def blockInner (key : List U8) (ctr : U32) (iv : List U8) : M (List U32) := do
  let st ← blockInit key ctr iv
  let state ← rounds st
  loop 16 (fun i s => do
    let x ← idx s i
    let y ← idx st i
    setIdx s i (SecretInt.add x y)) state

/-- `chacha20.rs:82-85` `block`. -/
def block (key : List U8) (ctr : U32) (iv : List U8) : M (List U8) := do
  let state ← blockInner key ctr iv
  stateToBytes state

/-- `chacha20.rs:90-97` body of the loop of `chacha`; the state is `(ctr, blocks_out)`. -/
def chachaStep (key iv m : List U8) (i : Nat) (st : U32 × List U8) : M (U32 × List U8) := do
  let c ← getChunk m 64 i
  let keyBlock ← block key st.1 iv
  let padded ← updateStart (new 64) c.2
  let x ← arrXorSecret 64 padded keyBlock
  let x ← subr x 0 c.1
  let out ← setChunk st.2 64 i x
  .ok (SecretInt.add st.1 1, out)

/-- `chacha20.rs:87-99` `chacha`; it always returns `Ok`. -/
def chacha (key iv m : List U8) : M (List U8) := do
  let n ← numChunks m 64
  let st ← loop n (chachaStep key iv m) (1, new m.length)
  .ok st.2

end Hacspec.ChaCha

namespace Hacspec.Poly1305

open SecretInt Hacspec.Seq

/-- `poly1305.rs:16-21` `FieldElement`: 272-bit canvas, modulus `2^130 - 5`. -/
def T : NatMod.NatTy := { bits := 272, n := 0x03fffffffffffffffffffffffffffffffb }

/-- `poly1305.rs:23-26` `key_gen`. -/
def keyGen (key iv : List U8) : M (List U8) := do
  let b ← ChaCha.block key 0 iv
  arrFromSubRange 32 b 0 32

/-- `poly1305.rs:28-34` `encode_r`. -/
def encodeR (r : List U8) : M AbstractInt.Canvas := do
  let r128 ← updateSub (new 16) 0 r 0 16
  let u ← wordFromLeBytes 128 r128
  NatMod.fromLiteral T (u &&& 0x0ffffffc0ffffffc0ffffffc0fffffff)

/-- `poly1305.rs:36-43` `encode`. -/
def encode (block : List U8) : M AbstractInt.Canvas := do
  let b ← updateSub (new 16) 0 block 0 (min 16 block.length)
  let u ← wordFromLeBytes 128 b
  let w ← NatMod.fromLiteral T u
  let c ← AbstractInt.pow2 272 false (8 * block.length)
  let l ← NatMod.fromCanvas T c
  NatMod.add T w l

/-- `poly1305.rs:48-53` body of the loop of `poly_inner`, for the index `i = 16·k`. -/
def polyStep (m : List U8) (r : AbstractInt.Canvas) (k : Nat) (acc : AbstractInt.Canvas) :
    M AbstractInt.Canvas := do
  let i := 16 * k
  let blockLen := min 16 (m.length - i)
  let b ← updateSub (new blockLen) 0 m i blockLen
  let e ← encode b
  let a ← NatMod.add T acc e
  NatMod.mul T a r

/-- `poly1305.rs:45-55` `poly_inner`; `(0..m_len).step_by(16)` runs through the `⌈m_len/16⌉` multiples of 16 below
`m_len`. -/
def polyInner (m : List U8) (r : AbstractInt.Canvas) : M AbstractInt.Canvas := do
  let acc ← NatMod.fromLiteral T 0
  loop ((m.length + 15) / 16) (polyStep m r) acc

/-- `poly1305.rs:57-72` `poly`. -/
def poly (m key : List U8) : M (List U8) := do
  let sw ← arrFromSub 16 key 16 16
  let su ← wordFromLeBytes 128 sw
  let sElem ← NatMod.fromLiteral T su
  let rb ← arrFromSubRange 16 key 0 16
  let rElem ← encodeR rb
  let a ← polyInner m rElem
  let n ← NatMod.add T a sElem
  let nv := NatMod.toLeBytes n
  loop (min 16 nv.length) (fun i tag => do
    let x ← idx nv i
    setIdx tag i x) (new 16)

/-- `poly1305.rs:74-77` `poly_mac`. -/
def polyMac (m key iv : List U8) : M (List U8) := do
  let k ← keyGen key iv
  poly m k

end Hacspec.Poly1305

namespace Hacspec.ChaChaPoly

open SecretInt Hacspec.Seq

/-- `chacha20poly1305.rs:11-20` a length rounded up to a multiple of 16. -/
def padLen (l : Nat) : Nat := if l % 16 = 0 then l else 16 * ((l >>> 4) + 1)

/-- `chacha20poly1305.rs:8-27` `pad_aad_msg`.  The sums of lengths are below `2^64` for all allocations that can exist
together and not checked here. -/
def padAadMsg (aad msg : List U8) : M (List U8) := do
  let padAad := padLen aad.length
  let padMsg := padLen msg.length
  let p ← update (new (padAad + padMsg + 16)) 0 aad
  let p ← update p padAad msg
  let la ← wordToLeBytes (BitVec.ofNat 64 aad.length)
  let p ← update p (padAad + padMsg) la
  let lm ← wordToLeBytes (BitVec.ofNat 64 msg.length)
  update p (padAad + padMsg + 8) lm

/-- `chacha20poly1305.rs:29-42` `encrypt`; `chacha` never returns `Err`. -/
def encrypt (key iv aad msg : List U8) : M (List U8 × List U8) := do
  let keyBlock ← ChaCha.block key 0 iv
  let macKey ← arrFromSubRange 32 keyBlock 0 32
  let c ← ChaCha.chacha key iv msg
  let p ← padAadMsg aad c
  let tag ← Poly1305.poly p macKey
  .ok (c, tag)

/-- `chacha20poly1305.rs:44-66` `decrypt`; `none` is `Err("Mac verification failed")`. -/
def decrypt (key iv aad cipherText tag : List U8) : M (Option (List U8)) := do
  let keyBlock ← ChaCha.block key 0 iv
  let macKey ← arrFromSubRange 32 keyBlock 0 32
  let p ← padAadMsg aad cipherText
  let myTag ← Poly1305.poly p macKey
  if myTag = tag then do
    let c ← ChaCha.chacha key iv cipherText
    .ok (some c)
  else .ok none

end Hacspec.ChaChaPoly
