import Verif.Model.MachineInt
import Verif.Model.Seq

/-! # Model of `spec-examples/src/blake2/blake2b.rs`

The code is generic in the word type; the model is generic in the width `w` of the words.  `State::iv()` (`HasIV`,
L94-104) is an argument: `ivb` for 64-bit and `ivs` for 32-bit words. -/

namespace Hacspec.Blake2

open SecretInt Hacspec.Seq MachineInt

variable {w : Nat}

/-- `blake2b.rs:11-19` `SIGMA`. -/
def sigma : List Nat := [
    0, 1, 2, 3, 4, 5, 6, 7, 8, 9, 10, 11, 12, 13, 14, 15, 14, 10, 4, 8, 9, 15, 13, 6, 1, 12, 0, 2,
    11, 7, 5, 3, 11, 8, 12, 0, 5, 2, 15, 13, 10, 14, 3, 6, 7, 1, 9, 4, 7, 9, 3, 1, 13, 12, 11, 14,
    2, 6, 5, 10, 4, 0, 15, 8, 9, 0, 5, 7, 2, 4, 10, 15, 14, 1, 11, 12, 6, 8, 3, 13, 2, 12, 6, 10,
    0, 11, 8, 3, 4, 13, 7, 5, 15, 14, 1, 9, 12, 5, 1, 15, 14, 13, 4, 10, 0, 7, 6, 3, 9, 2, 8, 11,
    13, 11, 7, 14, 12, 1, 3, 9, 5, 0, 15, 4, 8, 6, 2, 10, 6, 15, 14, 9, 11, 3, 0, 8, 12, 2, 13, 7,
    1, 4, 10, 5, 10, 2, 8, 4, 7, 6, 1, 5, 15, 11, 9, 14, 3, 12, 13, 0, 0, 1, 2, 3, 4, 5, 6, 7, 8,
    9, 10, 11, 12, 13, 14, 15, 14, 10, 4, 8, 9, 15, 13, 6, 1, 12, 0, 2, 11, 7, 5, 3]

/-- `blake2b.rs:21-33` `IVS`, returned by `iv` (`blake2b.rs:103`). -/
def ivs : List U32 := [0x6A09E667, 0xBB67AE85, 0x3C6EF372, 0xA54FF53A, 0x510E527F, 0x9B05688C, 0x1F83D9AB, 0x5BE0CD19]

/-- `blake2b.rs:35-47` `IVB`, returned by `iv` (`blake2b.rs:99`). -/
def ivb : List U64 := [
  0x6a09e667f3bcc908, 0xbb67ae8584caa73b, 0x3c6ef372fe94f82b, 0xa54ff53a5f1d36f1,
  0x510e527fade682d1, 0x9b05688c2b3e6c1f, 0x1f83d9abfb41bd6b, 0x5be0cd19137e2179]

/-- `blake2b.rs:59`, `65` `result[a] = result[a] + result[b] + x`. -/
def addStep (v : List (BitVec w)) (a b : Nat) (x : BitVec w) : M (List (BitVec w)) := do
  let p ← idx v a
  let q ← idx v b
  setIdx v a (SecretInt.add (SecretInt.add p q) x)

/-- `blake2b.rs:62`, `68` `result[c] = result[c] + result[d]`. -/
def addStep2 (v : List (BitVec w)) (c d : Nat) : M (List (BitVec w)) := do
  let p ← idx v c
  let q ← idx v d
  setIdx v c (SecretInt.add p q)

/-- `blake2b.rs:60`, `63`, `66`, `69` `result[d] = (result[d] ^ result[a]).rotate_right(n)`. -/
def rotStep (v : List (BitVec w)) (d a n : Nat) : M (List (BitVec w)) := do
  let p ← idx v d
  let q ← idx v a
  let r ← rotateRight secU (p ^^^ q) n
  setIdx v d r

/-- `blake2b.rs:49-72` `mix`. -/
def mix (v : List (BitVec w)) (a b c d : Nat) (x y : BitVec w) : M (List (BitVec w)) := do
  let v ← addStep v a b x
  let v ← rotStep v d a 32
  let v ← addStep2 v c d
  let v ← rotStep v b c 24
  let v ← addStep v a b y
  let v ← rotStep v d a 16
  let v ← addStep2 v c d
  rotStep v b c 63

/-- `blake2b.rs:78-80` the conditional assignment of `inc_counter`. -/
def incHigh (t : List (BitVec w)) (newVal x : BitVec w) (result : List (BitVec w)) : M (List (BitVec w)) :=
  if (pubU : IntOps w).lt newVal x = true then do
    let t1 ← idx t 1
    let s ← (pubU : IntOps w).add t1 1#w
    setIdx result 1 s
  else .ok result

/-- `blake2b.rs:74-82` `inc_counter`; the words are public, so `+` panics on overflow. -/
def incCounter (t : List (BitVec w)) (x : BitVec w) : M (List (BitVec w)) := do
  let t0 ← idx t 0
  let newVal ← (pubU : IntOps w).add t0 x
  let result ← setIdx (new 2) 0 newVal
  incHigh t newVal x result

/-- `blake2b.rs:84-92` `make_array`; `from_le_bytes` (`traits.rs:326`, `345`) checks the length of the chunk. -/
def makeArray (w : Nat) (h : List U8) : M (List (BitVec w)) := do
  require (h.length / (w / 8) = 16)
  loop 16 (fun i result => do
    let c ← getChunk h (w / 8) i
    let b ← arrFromSeq (w / 8) c.2
    let x ← wordFromLeBytes w b
    setIdx result i x) (new 16)

/-- `blake2b.rs:106-110` `BlakeVariant`. -/
inductive Variant where
  | blake2s
  | blake2b
  deriving DecidableEq, Repr

/-- `blake2b.rs:137-140` `num_rounds`. -/
def Variant.rounds : Variant → Nat
  | .blake2s => 10
  | .blake2b => 12

/-- `blake2b.rs:193-196` `digest_size`. -/
def Variant.digest : Variant → Nat
  | .blake2s => 32
  | .blake2b => 64

/-- `blake2b.rs:143-158` one call of `mix` in round `i`, with the words `k` and `k + 1` of the schedule. -/
def mixAt (m : List (BitVec w)) (i k a b c d : Nat) (v : List (BitVec w)) : M (List (BitVec w)) := do
  let s ← idx sigma (i * 16 + k)
  let x ← idx m s
  let s' ← idx sigma (i * 16 + (k + 1))
  let y ← idx m s'
  mix v a b c d x y

/-- `blake2b.rs:142-159` body of the loop of `compress`. -/
def roundStep (m : List (BitVec w)) (i : Nat) (v : List (BitVec w)) : M (List (BitVec w)) := do
  let v ← mixAt m i 0 0 4 8 12 v
  let v ← mixAt m i 2 1 5 9 13 v
  let v ← mixAt m i 4 2 6 10 14 v
  let v ← mixAt m i 6 3 7 11 15 v
  let v ← mixAt m i 8 0 5 10 15 v
  let v ← mixAt m i 10 1 6 11 12 v
  let v ← mixAt m i 12 2 7 8 13 v
  mixAt m i 14 3 4 9 14 v

/-- `blake2b.rs:131-135` the finalization flag. -/
def setLast (last : Bool) (v : List (BitVec w)) : M (List (BitVec w)) :=
  if last = true then do
    let x ← idx v 14
    setIdx v 14 (~~~ x)
  else .ok v

/-- `blake2b.rs:119-135` the initial work vector. -/
def initV (iv h t : List (BitVec w)) (last : Bool) : M (List (BitVec w)) := do
  let v ← updateSub (new 16) 0 h 0 8
  let v ← updateSub v 8 iv 0 8
  let x ← idx v 12
  let t0 ← idx t 0
  let v ← setIdx v 12 (x ^^^ classify t0)
  let x ← idx v 13
  let t1 ← idx t 1
  let v ← setIdx v 13 (x ^^^ classify t1)
  setLast last v

/-- `blake2b.rs:112-166` `compress`. -/
def compress (iv h : List (BitVec w)) (m : List U8) (t : List (BitVec w)) (last : Bool) (alg : Variant) :
    M (List (BitVec w)) := do
  let m ← makeArray w m
  let v ← initV iv h t last
  let v ← loop alg.rounds (roundStep m) v
  loop 8 (fun i c => do
    let x ← idx h i
    let y ← idx v i
    let z ← idx v (i + 8)
    setIdx c i (x ^^^ y ^^^ z)) (new 8)

/-- `blake2b.rs:169-172` `get_byte`. -/
def getByte (x : BitVec w) (i : Nat) : M U8 := do
  let b ← MachineInt.getByte x i
  let bytes ← wordToLeBytes b
  idx bytes 0

/-- `blake2b.rs:182-190` the two cases of the body of the loop of `blake2`; the state is `(h, t)`. -/
def blockBranch (iv : List (BitVec w)) (alg : Variant) (blockLen : Nat) (blk : List U8)
    (st : List (BitVec w) × List (BitVec w)) : M (List (BitVec w) × List (BitVec w)) :=
  if blockLen = 128 then do
    let t ← incCounter st.2 (BitVec.ofNat w 128)
    let b ← fromSeq blk
    let h ← compress iv st.1 b t false alg
    .ok (h, t)
  else do
    let t ← incCounter st.2 (BitVec.ofNat w blockLen)
    let b ← updateStart (new 128) blk
    let h ← compress iv st.1 b t true alg
    .ok (h, t)

/-- `blake2b.rs:180-191` body of the loop of `blake2`. -/
def blockStep (iv : List (BitVec w)) (alg : Variant) (data : List U8) (i : Nat)
    (st : List (BitVec w) × List (BitVec w)) : M (List (BitVec w) × List (BitVec w)) := do
  let c ← getChunk data 128 i
  blockBranch iv alg c.1 c.2 st

/-- `blake2b.rs:174-205` `blake2`. -/
def blake2 (iv : List (BitVec w)) (data : List U8) (alg : Variant) : M (List U8) := do
  let h0 ← idx iv 0
  let h ← setIdx iv 0 (h0 ^^^ BitVec.ofNat w 0x01010000 ^^^ BitVec.ofNat w 64)
  let n ← numChunks data 128
  let st ← loop n (blockStep iv alg data) (h, new 2)
  loop 8 (fun i d => loop 8 (fun j d => do
    let x ← idx st.1 i
    let b ← getByte x j
    setIdx d (i * 8 + j) b) d) (new alg.digest)

/-- `blake2b.rs:207-209` `blake2b`. -/
def blake2b (data : List U8) : M (List U8) := do
  let d ← blake2 ivb data .blake2b
  arrFromSeq 64 d

end Hacspec.Blake2
