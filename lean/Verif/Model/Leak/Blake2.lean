import Verif.Model.Leak.Seq
import Verif.Model.Blake2

/-! # `Verif/Model/Blake2.lean`, with the visible events -/

namespace Hacspec.Leak.Blake2

open SecretInt (classify)
open MachineInt (rotateRight IntOps pubU secU)
open Leak.Seq
open Hacspec.Seq (new)
open Hacspec.Blake2 (sigma ivb Variant)

variable {w : Nat}

/-- `blake2b.rs:59`, `65` `result[a] = result[a] + result[b] + x`. -/
def addStep (v : List (BitVec w)) (a b : Nat) (x : BitVec w) : L (List (BitVec w)) := do
  let p ← idx v a
  let q ← idx v b
  setIdx v a (SecretInt.add (SecretInt.add p q) x)

/-- `blake2b.rs:62`, `68` `result[c] = result[c] + result[d]`. -/
def addStep2 (v : List (BitVec w)) (c d : Nat) : L (List (BitVec w)) := do
  let p ← idx v c
  let q ← idx v d
  setIdx v c (SecretInt.add p q)

/-- `blake2b.rs:60`, `63`, `66`, `69` `result[d] = (result[d] ^ result[a]).rotate_right(n)`. -/
def rotStep (v : List (BitVec w)) (d a n : Nat) : L (List (BitVec w)) := do
  let p ← idx v d
  let q ← idx v a
  let r ← lift (rotateRight secU (p ^^^ q) n)
  setIdx v d r

/-- `blake2b.rs:49-72` `mix`. -/
def mix (v : List (BitVec w)) (a b c d : Nat) (x y : BitVec w) : L (List (BitVec w)) := do
  let v ← addStep v a b x
  let v ← rotStep v d a 32
  let v ← addStep2 v c d
  let v ← rotStep v b c 24
  let v ← addStep v a b y
  let v ← rotStep v d a 16
  let v ← addStep2 v c d
  rotStep v b c 63

/-- `blake2b.rs:78-80` the conditional assignment of `inc_counter`. -/
def incHigh (t : List (BitVec w)) (newVal x : BitVec w) (result : List (BitVec w)) : L (List (BitVec w)) :=
  branch ((pubU : IntOps w).lt newVal x = true)
    (do
      let t1 ← idx t 1
      let s ← lift ((pubU : IntOps w).add t1 1#w)
      setIdx result 1 s)
    (.ok result)

/-- `blake2b.rs:74-82` `inc_counter`; the words are public, so `+` panics on overflow. -/
def incCounter (t : List (BitVec w)) (x : BitVec w) : L (List (BitVec w)) := do
  let t0 ← idx t 0
  let newVal ← lift ((pubU : IntOps w).add t0 x)
  let result ← setIdx (new 2) 0 newVal
  incHigh t newVal x result

/-- `blake2b.rs:84-92` `make_array`; `from_le_bytes` (`traits.rs:326`, `345`) checks the length of the chunk. -/
def makeArray (w : Nat) (h : List U8) : L (List (BitVec w)) := do
  require (h.length / (w / 8) = 16)
  loop 16 (fun i result => do
    let c ← getChunk h (w / 8) i
    let b ← arrFromSeq (w / 8) c.2
    let x ← wordFromLeBytes w b
    setIdx result i x) (new 16)

/-- `blake2b.rs:143-158` one call of `mix` in round `i`, with the words `k` and `k + 1` of the schedule. -/
def mixAt (m : List (BitVec w)) (i k a b c d : Nat) (v : List (BitVec w)) : L (List (BitVec w)) := do
  let s ← idx sigma (i * 16 + k)
  let x ← idx m s
  let s' ← idx sigma (i * 16 + (k + 1))
  let y ← idx m s'
  mix v a b c d x y

/-- `blake2b.rs:142-159` body of the loop of `compress`. -/
def roundStep (m : List (BitVec w)) (i : Nat) (v : List (BitVec w)) : L (List (BitVec w)) := do
  let v ← mixAt m i 0 0 4 8 12 v
  let v ← mixAt m i 2 1 5 9 13 v
  let v ← mixAt m i 4 2 6 10 14 v
  let v ← mixAt m i 6 3 7 11 15 v
  let v ← mixAt m i 8 0 5 10 15 v
  let v ← mixAt m i 10 1 6 11 12 v
  let v ← mixAt m i 12 2 7 8 13 v
  mixAt m i 14 3 4 9 14 v

/-- `blake2b.rs:131-135` the finalization flag. -/
def setLast (last : Bool) (v : List (BitVec w)) : L (List (BitVec w)) :=
  branch (last = true)
    (do
      let x ← idx v 14
      setIdx v 14 (~~~ x))
    (.ok v)

/-- `blake2b.rs:119-135` the initial work vector. -/
def initV (iv h t : List (BitVec w)) (last : Bool) : L (List (BitVec w)) := do
  let v ← updateSub (new 16) 0 h 0 8
  let v ← updateSub v 8 iv 0 8
  let x ← idx v 12
  let t0 ← idx t 0
  let v ← setIdx v 12 (x ^^^ classify t0)
  let x ← idx v 13
  let t1 ← idx t 1
  let v ← setIdx v 13 (x ^^^ classify t1)
  setLast last v

/-- `blake2b.rs:112-166` `compress`. -/
def compress (iv h : List (BitVec w)) (m : List U8) (t : List (BitVec w)) (last : Bool) (alg : Variant) :
    L (List (BitVec w)) := do
  let m ← makeArray w m
  let v ← initV iv h t last
  let v ← loop alg.rounds (roundStep m) v
  loop 8 (fun i c => do
    let x ← idx h i
    let y ← idx v i
    let z ← idx v (i + 8)
    setIdx c i (x ^^^ y ^^^ z)) (new 8)

/-- `blake2b.rs:169-172` `get_byte`. -/
def getByte (x : BitVec w) (i : Nat) : L U8 := do
  let b ← lift (MachineInt.getByte x i)
  let bytes ← wordToLeBytes b
  idx bytes 0

/-- `blake2b.rs:182-190` the two cases of the body of the loop of `blake2`; the state is `(h, t)`. -/
def blockBranch (iv : List (BitVec w)) (alg : Variant) (blockLen : Nat) (blk : List U8)
    (st : List (BitVec w) × List (BitVec w)) : L (List (BitVec w) × List (BitVec w)) :=
  branch (blockLen = 128)
    (do
      let t ← incCounter st.2 (BitVec.ofNat w 128)
      let b ← fromSeq blk
      let h ← compress iv st.1 b t false alg
      .ok (h, t))
    (do
      let t ← incCounter st.2 (BitVec.ofNat w blockLen)
      let b ← updateStart (new 128) blk
      let h ← compress iv st.1 b t true alg
      .ok (h, t))

/-- `blake2b.rs:180-191` body of the loop of `blake2`. -/
def blockStep (iv : List (BitVec w)) (alg : Variant) (data : List U8) (i : Nat)
    (st : List (BitVec w) × List (BitVec w)) : L (List (BitVec w) × List (BitVec w)) := do
  let c ← getChunk data 128 i
  blockBranch iv alg c.1 c.2 st

/-- `blake2b.rs:174-205` `blake2`. -/
def blake2 (iv : List (BitVec w)) (data : List U8) (alg : Variant) : L (List U8) := do
  let h0 ← idx iv 0
  let h ← setIdx iv 0 (h0 ^^^ BitVec.ofNat w 0x01010000 ^^^ BitVec.ofNat w 64)
  let n ← numChunks data 128
  let st ← loop n (blockStep iv alg data) (h, new 2)
  loop 8 (fun i d => loop 8 (fun j d => do
    let x ← idx st.1 i
    let b ← getByte x j
    setIdx d (i * 8 + j) b) d) (new alg.digest)

/-- `blake2b.rs:207-209` `blake2b`. -/
def blake2b (data : List U8) : L (List U8) := do
  let d ← blake2 ivb data .blake2b
  arrFromSeq 64 d

end Hacspec.Leak.Blake2
