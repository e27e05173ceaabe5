import Verif.Model.Seq

/-! # SHA-256: `spec-examples/src/sha2/sha2.rs` -/

namespace Hacspec.Sha2

open SecretInt Hacspec.Seq

/-- `sha2.rs:24-26` `ch`. -/
def ch (x y z : U32) : U32 := (x &&& y) ^^^ (~~~ x &&& z)

/-- `sha2.rs:28-30` `maj`. -/
def maj (x y z : U32) : U32 := (x &&& y) ^^^ ((x &&& z) ^^^ (y &&& z))

/-- `sha2.rs:33` the table of `sigma`. -/
def opTable : List U8 := [2, 13, 22, 6, 11, 25, 7, 18, 3, 17, 19, 10]

/-- `sha2.rs:34-38` the third operand. -/
def sigmaTmp (x : U32) (t : U8) (op : Nat) : M U32 :=
  if op = 0 then shrU x t.toNat else .ok (rotr x t.toNat)

/-- `sha2.rs:32-40` `sigma`. -/
def sigma (x : U32) (i op : Nat) : M U32 := do
  let t ← arrFromPublicSlice 12 opTable
  let t2 ← idx t (3 * i + 2)
  let tmp ← sigmaTmp x t2 op
  let t0 ← idx t (3 * i)
  let t1 ← idx t (3 * i + 1)
  .ok (rotr x t0.toNat ^^^ rotr x t1.toNat ^^^ tmp)

/-- `sha2.rs:46-56` body of the loop of `schedule`. -/
def scheduleStep (b : List U32) (i : Nat) (s : List U32) : M (List U32) :=
  if i < 16 then do
    let x ← idx b i
    setIdx s i x
  else do
    let t16 ← idx s (i - 16)
    let t15 ← idx s (i - 15)
    let t7 ← idx s (i - 7)
    let t2 ← idx s (i - 2)
    let s1 ← sigma t2 3 0
    let s0 ← sigma t15 2 0
    setIdx s i (SecretInt.add (SecretInt.add (SecretInt.add s1 t7) s0) t16)

/-- `sha2.rs:42-59` `schedule`. -/
def schedule (block : List U8) : M (List U32) := do
  let b ← arrToBeWords 32 64 block
  loop 64 (scheduleStep b) (new 64)

/-- `sha2.rs:62-127` the literals of `k_table`. -/
def kTable : List U32 :=
  [0x428a2f98, 0x71374491, 0xb5c0fbcf, 0xe9b5dba5, 0x3956c25b, 0x59f111f1, 0x923f82a4, 0xab1c5ed5,
   0xd807aa98, 0x12835b01, 0x243185be, 0x550c7dc3, 0x72be5d74, 0x80deb1fe, 0x9bdc06a7, 0xc19bf174,
   0xe49b69c1, 0xefbe4786, 0x0fc19dc6, 0x240ca1cc, 0x2de92c6f, 0x4a7484aa, 0x5cb0a9dc, 0x76f988da,
   0x983e5152, 0xa831c66d, 0xb00327c8, 0xbf597fc7, 0xc6e00bf3, 0xd5a79147, 0x06ca6351, 0x14292967,
   0x27b70a85, 0x2e1b2138, 0x4d2c6dfc, 0x53380d13, 0x650a7354, 0x766a0abb, 0x81c2c92e, 0x92722c85,
   0xa2bfe8a1, 0xa81a664b, 0xc24b8b70, 0xc76c51a3, 0xd192e819, 0xd6990624, 0xf40e3585, 0x106aa070,
   0x19a4c116, 0x1e376c08, 0x2748774c, 0x34b0bcb5, 0x391c0cb3, 0x4ed8aa4a, 0x5b9cca4f, 0x682e6ff3,
   0x748f82ee, 0x78a5636f, 0x84c87814, 0x8cc70208, 0x90befffa, 0xa4506ceb, 0xbef9a3f7, 0xc67178f2]

/-- `sha2.rs:131-151` body of the loop of `shuffle`. -/
def shuffleStep (k ws : List U32) (i : Nat) (h : List U32) : M (List U32) := do
  let a0 ← idx h 0
  let b0 ← idx h 1
  let c0 ← idx h 2
  let d0 ← idx h 3
  let e0 ← idx h 4
  let f0 ← idx h 5
  let g0 ← idx h 6
  let h0 ← idx h 7
  let se ← sigma e0 1 1
  let ki ← idx k i
  let wi ← idx ws i
  let t1 := SecretInt.add (SecretInt.add (SecretInt.add (SecretInt.add h0 se) (ch e0 f0 g0)) ki) wi
  let sa ← sigma a0 0 1
  let t2 := SecretInt.add sa (maj a0 b0 c0)
  let h ← setIdx h 0 (SecretInt.add t1 t2)
  let h ← setIdx h 1 a0
  let h ← setIdx h 2 b0
  let h ← setIdx h 3 c0
  let h ← setIdx h 4 (SecretInt.add d0 t1)
  let h ← setIdx h 5 e0
  let h ← setIdx h 6 f0
  setIdx h 7 g0

/-- `sha2.rs:61-153` `shuffle`. -/
def shuffle (ws hashi : List U32) : M (List U32) := do
  let k ← arrFromPublicSlice 64 kTable
  loop 64 (shuffleStep k ws) hashi

/-- `sha2.rs:155-162` `compress`. -/
def compress (block : List U8) (hIn : List U32) : M (List U32) := do
  let s ← schedule block
  let h ← shuffle s hIn
  loop 8 (fun i h => do
    let x ← idx h i
    let y ← idx hIn i
    setIdx h i (SecretInt.add x y)) h

/-- `sha2.rs:165-168` the initial value. -/
def initial : List U32 :=
  [0x6a09e667, 0xbb67ae85, 0x3c6ef372, 0xa54ff53a, 0x510e527f, 0x9b05688c, 0x1f83d9ab, 0x5be0cd19]

/-- `sha2.rs:172-187` the case of an incomplete block.  `msg.len() * 8` is checked `usize` arithmetic. -/
def lastBlock (msgLen blockLen : Nat) (block : List U8) (h : List U32) : M (List U32) := do
  let b ← updateStart (new 64) block
  let last ← update (new 64) 0 b
  let last ← setIdx last blockLen 0x80#8
  require (msgLen * 8 < 2 ^ 64)
  let lenBist : U64 := BitVec.ofNat 64 (msgLen * 8)
  if blockLen < 64 - 8 then do
    let lb ← wordToBeBytes lenBist
    let last ← update last (64 - 8) lb
    compress last h
  else do
    let lb ← wordToBeBytes lenBist
    let padBlock ← update (new 64) (64 - 8) lb
    let h ← compress last h
    compress padBlock h

/-- `sha2.rs:170-191` body of the loop of `hash`. -/
def hashStep (msg : List U8) (i : Nat) (h : List U32) : M (List U32) := do
  let lb ← getChunk msg 64 i
  if lb.1 < 64 then lastBlock msg.length lb.1 lb.2 h
  else do
    let b ← updateStart (new 64) lb.2
    compress b h

/-- `sha2.rs:164-193` `hash`. -/
def hash (msg : List U8) : M (List U8) := do
  let h ← arrFromPublicSlice 8 initial
  let n ← numChunks msg 64
  let h ← loop n (hashStep msg) h
  let d ← arrToBeBytes 8 h
  arrFromSeq 32 d

end Hacspec.Sha2
