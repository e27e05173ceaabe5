import Verif.Model.Leak.ChaCha

/-! # Poly1305 and ChaCha20-Poly1305 of `Verif/Model/ChaCha.lean`, with the visible events

The arithmetic of the field elements counts as straight-line code.  (It is done by `num-bigint`, whose running time
depends on the values: these events are not modelled.)  The comparison of tags is one branch on its outcome. -/

namespace Hacspec.Leak.Poly1305

open SecretInt Leak.Seq
open Hacspec.Seq (new)
open Hacspec.Poly1305 (T)

/-- `poly1305.rs:23-26` `key_gen`. -/
def keyGen (key iv : List U8) : L (List U8) := do
  let b ← ChaCha.block key 0 iv
  arrFromSubRange 32 b 0 32

/-- `poly1305.rs:28-34` `encode_r`. -/
def encodeR (r : List U8) : L AbstractInt.Canvas := do
  let r128 ← updateSub (new 16) 0 r 0 16
  let u ← wordFromLeBytes 128 r128
  lift (NatMod.fromLiteral T (u &&& 0x0ffffffc0ffffffc0ffffffc0fffffff))

/-- `poly1305.rs:36-43` `encode`. -/
def encode (block : List U8) : L AbstractInt.Canvas := do
  let b ← updateSub (new 16) 0 block 0 (min 16 block.length)
  let u ← wordFromLeBytes 128 b
  let w ← lift (NatMod.fromLiteral T u)
  let c ← lift (AbstractInt.pow2 272 false (8 * block.length))
  let l ← lift (NatMod.fromCanvas T c)
  lift (NatMod.add T w l)

/-- `poly1305.rs:48-53` body of the loop of `poly_inner`, for the index `i = 16·k`. -/
def polyStep (m : List U8) (r : AbstractInt.Canvas) (k : Nat) (acc : AbstractInt.Canvas) :
    L AbstractInt.Canvas := do
  let i := 16 * k
  let blockLen := min 16 (m.length - i)
  let b ← updateSub (new blockLen) 0 m i blockLen
  let e ← encode b
  let a ← lift (NatMod.add T acc e)
  lift (NatMod.mul T a r)

/-- `poly1305.rs:45-55` `poly_inner`; `(0..m_len).step_by(16)` runs through the `⌈m_len/16⌉` multiples of 16 below
`m_len`. -/
def polyInner (m : List U8) (r : AbstractInt.Canvas) : L AbstractInt.Canvas := do
  let acc ← lift (NatMod.fromLiteral T 0)
  loop ((m.length + 15) / 16) (polyStep m r) acc

/-- `poly1305.rs:57-72` `poly`. -/
def poly (m key : List U8) : L (List U8) := do
  let sw ← arrFromSub 16 key 16 16
  let su ← wordFromLeBytes 128 sw
  let sElem ← lift (NatMod.fromLiteral T su)
  let rb ← arrFromSubRange 16 key 0 16
  let rElem ← encodeR rb
  let a ← polyInner m rElem
  let n ← lift (NatMod.add T a sElem)
  let nv := NatMod.toLeBytes n
  loop (min 16 nv.length) (fun i tag => do
    let x ← idx nv i
    setIdx tag i x) (new 16)

/-- `poly1305.rs:74-77` `poly_mac`. -/
def polyMac (m key iv : List U8) : L (List U8) := do
  let k ← keyGen key iv
  poly m k

end Hacspec.Leak.Poly1305

namespace Hacspec.Leak.ChaChaPoly

open SecretInt Leak.Seq
open Hacspec.Seq (new)

/-- `chacha20poly1305.rs:11-20` a length rounded up to a multiple of 16. -/
def padLen (l : Nat) : L Nat := branch (l % 16 = 0) (.ok l) (.ok (16 * ((l >>> 4) + 1)))

/-- `chacha20poly1305.rs:8-27` `pad_aad_msg`.  The sums of lengths are below `2^64` for all allocations that can exist
together and not checked here. -/
def padAadMsg (aad msg : List U8) : L (List U8) := do
  let padAad ← padLen aad.length
  let padMsg ← padLen msg.length
  let p ← update (new (padAad + padMsg + 16)) 0 aad
  let p ← update p padAad msg
  let la ← wordToLeBytes (BitVec.ofNat 64 aad.length)
  let p ← update p (padAad + padMsg) la
  let lm ← wordToLeBytes (BitVec.ofNat 64 msg.length)
  update p (padAad + padMsg + 8) lm

/-- `chacha20poly1305.rs:29-42` `encrypt`; `chacha` never returns `Err`. -/
def encrypt (key iv aad msg : List U8) : L (List U8 × List U8) := do
  let keyBlock ← ChaCha.block key 0 iv
  let macKey ← arrFromSubRange 32 keyBlock 0 32
  let c ← ChaCha.chacha key iv msg
  let p ← padAadMsg aad c
  let tag ← Poly1305.poly p macKey
  .ok (c, tag)

/-- `chacha20poly1305.rs:44-66` `decrypt`; `none` is `Err("Mac verification failed")`. -/
def decrypt (key iv aad cipherText tag : List U8) : L (Option (List U8)) := do
  let keyBlock ← ChaCha.block key 0 iv
  let macKey ← arrFromSubRange 32 keyBlock 0 32
  let p ← padAadMsg aad cipherText
  let myTag ← Poly1305.poly p macKey
  branch (myTag = tag)
    (do
      let c ← ChaCha.chacha key iv cipherText
      .ok (some c))
    (.ok none)

end Hacspec.Leak.ChaChaPoly
