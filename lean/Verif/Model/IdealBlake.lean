import Verif.Model.Blake2
import Verif.Spec.Oracles

/-! # BLAKE2b with the inner function as a parameter

The definitions of `Verif.Model.Blake2` for 64-bit words once more, with the rounds of `compress` (`blake2b.rs:137-159`) replaced by a
call of a function that is passed in. -/

namespace Hacspec.Blake2

open SecretInt Hacspec.Seq MachineInt

/-- `blake2b.rs:112-166` `compress`; `E m v` stands for the rounds with the words `m` of the block. -/
def compressWith (E : List U64 → List U64 → M (List U64)) (h : List U64) (m : List U8) (t : List U64) (last : Bool) :
    M (List U64) := do
  let m ← makeArray 64 m
  let v ← initV ivb h t last
  let v ← E m v
  loop 8 (fun i c => do
    let x ← idx h i
    let y ← idx v i
    let z ← idx v (i + 8)
    setIdx c i (x ^^^ y ^^^ z)) (new 8)

/-- `blake2b.rs:182-190` the two cases of the body of the loop of `blake2`; `comp` stands for `compress`. -/
def blockBranchWith (comp : List U64 → List U8 → List U64 → Bool → M (List U64)) (blockLen : Nat) (blk : List U8)
    (st : List U64 × List U64) : M (List U64 × List U64) :=
  if blockLen = 128 then do
    let t ← incCounter st.2 (BitVec.ofNat 64 128)
    let b ← fromSeq blk
    let h ← comp st.1 b t false
    .ok (h, t)
  else do
    let t ← incCounter st.2 (BitVec.ofNat 64 blockLen)
    let b ← updateStart (new 128) blk
    let h ← comp st.1 b t true
    .ok (h, t)

/-- `blake2b.rs:180-191` body of the loop of `blake2`. -/
def blockStepWith (comp : List U64 → List U8 → List U64 → Bool → M (List U64)) (data : List U8) (i : Nat)
    (st : List U64 × List U64) : M (List U64 × List U64) := do
  let c ← getChunk data 128 i
  blockBranchWith comp c.1 c.2 st

/-- `blake2b.rs:198-205` the bytes of the state. -/
def outBytes (h : List U64) : M (List U8) :=
  loop 8 (fun i d => loop 8 (fun j d => do
    let x ← idx h i
    let b ← getByte x j
    setIdx d (i * 8 + j) b) d) (new 64)

/-- `blake2b.rs:174-209` `blake2` and `blake2b`. -/
def blake2bWith (comp : List U64 → List U8 → List U64 → Bool → M (List U64)) (data : List U8) : M (List U8) := do
  let h0 ← idx ivb 0
  let h ← setIdx ivb 0 (h0 ^^^ BitVec.ofNat 64 0x01010000 ^^^ BitVec.ofNat 64 64)
  let n ← numChunks data 128
  let st ← loop n (blockStepWith comp data) (h, new 2)
  let d ← outBytes st.1
  arrFromSeq 64 d

end Hacspec.Blake2

namespace Hacspec.Ideal

open Spec

/-- A block cipher with keys and blocks of 16 words in place of the rounds; the types of Rust leave only such lists. -/
def blakeCipher (E : Words 64 16 → Equiv.Perm (Words 64 16)) (m v : List U64) : M (List U64) :=
  if hl : m.length = 16 ∧ v.length = 16 then .ok (E ⟨m, hl.1⟩ ⟨v, hl.2⟩).1 else .error .panic

/-- `blake2b` with such a cipher. -/
def blake (E : Words 64 16 → Equiv.Perm (Words 64 16)) (m : List U8) : M (List U8) :=
  Blake2.blake2bWith (Blake2.compressWith (blakeCipher E)) m

end Hacspec.Ideal
