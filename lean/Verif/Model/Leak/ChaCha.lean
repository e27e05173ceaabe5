import Verif.Model.Leak.Seq
import Verif.Model.ChaCha

/-! # ChaCha20 of `Verif/Model/ChaCha.lean`, with the visible events -/

namespace Hacspec.Leak.ChaCha

open SecretInt Leak.Seq Leak.VecInt
open Hacspec.Seq (new)

/-- `chacha20.rs:11-17` body of the loop of `state_to_bytes`. -/
def stateToBytesStep (x : List U32) (i : Nat) (r : List U8) : L (List U8) := do
  let xi ← idx x i
  let bytes ← wordToBeBytes xi
  let b3 ← idx bytes 3
  let r ← setIdx r (i * 4) b3
  let b2 ← idx bytes 2
  let r ← setIdx r (i * 4 + 1) b2
  let b1 ← idx bytes 1
  let r ← setIdx r (i * 4 + 2) b1
  let b0 ← idx bytes 0
  setIdx r (i * 4 + 3) b0

/-- `chacha20.rs:9-19` `state_to_bytes`. -/
def stateToBytes (x : List U32) : L (List U8) := loop x.length (stateToBytesStep x) (new 64)

/-- `chacha20.rs:21-28` `line`. -/
def line (a b d s : Nat) (m : List U32) : L (List U32) := do
  let sa ← idx m a
  let sb ← idx m b
  let m ← setIdx m a (SecretInt.add sa sb)
  let sd ← idx m d
  let sa ← idx m a
  let m ← setIdx m d (sd ^^^ sa)
  let sd ← idx m d
  setIdx m d (rotl sd s)

/-- `chacha20.rs:30-35` `quarter_round`. -/
def quarterRound (a b c d : Nat) (state : List U32) : L (List U32) := do
  let state ← line a b d 16 state
  let state ← line c d b 12 state
  let state ← line a b d 8 state
  line c d b 7 state

/-- `chacha20.rs:37-47` `double_round`. -/
def doubleRound (state : List U32) : L (List U32) := do
  let state ← quarterRound 0 4 8 12 state
  let state ← quarterRound 1 5 9 13 state
  let state ← quarterRound 2 6 10 14 state
  let state ← quarterRound 3 7 11 15 state
  let state ← quarterRound 0 5 10 15 state
  let state ← quarterRound 1 6 11 12 state
  let state ← quarterRound 2 7 8 13 state
  quarterRound 3 4 9 14 state

/-- `U32_from_le_bytes(U32Word::from_sub_range(&key, a..b))` as in `chacha20.rs:55-66`. -/
def leWordAt (key : List U8) (a b : Nat) : L U32 := do
  let w ← arrFromSubRange 4 key a b
  wordFromLeBytes 32 w

/-- `chacha20.rs:49-68` `block_init`. -/
def blockInit (key : List U8) (ctr : U32) (iv : List U8) : L (List U32) := do
  let k0 ← leWordAt key 0 4
  let k1 ← leWordAt key 4 8
  let k2 ← leWordAt key 8 12
  let k3 ← leWordAt key 12 16
  let k4 ← leWordAt key 16 20
  let k5 ← leWordAt key 20 24
  let k6 ← leWordAt key 24 28
  let k7 ← leWordAt key 28 32
  let n0 ← leWordAt iv 0 4
  let n1 ← leWordAt iv 4 8
  let n2 ← leWordAt iv 8 12
  .ok [0x61707865, 0x3320646e, 0x79622d32, 0x6b206574, k0, k1, k2, k3, k4, k5, k6, k7, ctr, n0, n1, n2]

/-- `chacha20.rs:73-75` the rounds of `block_inner`. -/
def rounds (st : List U32) : L (List U32) := loop 10 (fun _ s => doubleRound s) st

/-- `chacha20.rs:70-80` `block_inner`. -/
def blockInner (key : List U8) (ctr : U32) (iv : List U8) : L (List U32) := do
  let st ← blockInit key ctr iv
  let state ← rounds st
  loop 16 (fun i s => do
    let x ← idx s i
    let y ← idx st i
    setIdx s i (SecretInt.add x y)) state

/-- `chacha20.rs:82-85` `block`. -/
def block (key : List U8) (ctr : U32) (iv : List U8) : L (List U8) := do
  let state ← blockInner key ctr iv
  stateToBytes state

/-- `chacha20.rs:90-97` body of the loop of `chacha`; the state is `(ctr, blocks_out)`. -/
def chachaStep (key iv m : List U8) (i : Nat) (st : U32 × List U8) : L (U32 × List U8) := do
  let c ← getChunk m 64 i
  let keyBlock ← block key st.1 iv
  let padded ← updateStart (new 64) c.2
  let x ← arrXorSecret 64 padded keyBlock
  let x ← subr x 0 c.1
  let out ← setChunk st.2 64 i x
  .ok (SecretInt.add st.1 1, out)

/-- `chacha20.rs:87-99` `chacha`; it always returns `Ok`. -/
def chacha (key iv m : List U8) : L (List U8) := do
  let n ← numChunks m 64
  let st ← loop n (chachaStep key iv m) (1, new m.length)
  .ok st.2

end Hacspec.Leak.ChaCha
