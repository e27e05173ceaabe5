import Verif.Model.Sha2
import Verif.Model.Fips202

/-! # The hash functions with the inner function as a parameter

The definitions of `Verif.Model.Sha2` and `Verif.Model.Fips202` once more, with the calls of `schedule` and `shuffle`
(`sha2.rs:156-157`) and of `keccakf1600` (`fips202.rs:121`, `133`) replaced by calls of a function that is passed in. -/

namespace Hacspec.Sha2

open SecretInt Hacspec.Seq

/-- `sha2.rs:155-162` `compress`; `E block h_in` stands for `shuffle(schedule(block), h_in)`. -/
def compressWith (E : List U8 → List U32 → M (List U32)) (block : List U8) (hIn : List U32) : M (List U32) := do
  let h ← E block hIn
  loop 8 (fun i h => do
    let x ← idx h i
    let y ← idx hIn i
    setIdx h i (SecretInt.add x y)) h

/-- `sha2.rs:172-187` the case of an incomplete block; `comp` stands for `compress`. -/
def lastBlockWith (comp : List U8 → List U32 → M (List U32)) (msgLen blockLen : Nat) (block : List U8) (h : List U32) :
    M (List U32) := do
  let b ← updateStart (new 64) block
  let last ← update (new 64) 0 b
  let last ← setIdx last blockLen 0x80#8
  require (msgLen * 8 < 2 ^ 64)
  let lenBist : U64 := BitVec.ofNat 64 (msgLen * 8)
  if blockLen < 64 - 8 then do
    let lb ← wordToBeBytes lenBist
    let last ← update last (64 - 8) lb
    comp last h
  else do
    let lb ← wordToBeBytes lenBist
    let padBlock ← update (new 64) (64 - 8) lb
    let h ← comp last h
    comp padBlock h

/-- `sha2.rs:170-191` body of the loop of `hash`. -/
def hashStepWith (comp : List U8 → List U32 → M (List U32)) (msg : List U8) (i : Nat) (h : List U32) : M (List U32) := do
  let lb ← getChunk msg 64 i
  if lb.1 < 64 then lastBlockWith comp msg.length lb.1 lb.2 h
  else do
    let b ← updateStart (new 64) lb.2
    comp b h

/-- `sha2.rs:164-193` `hash`. -/
def hashWith (comp : List U8 → List U32 → M (List U32)) (msg : List U8) : M (List U8) := do
  let h ← arrFromPublicSlice 8 initial
  let n ← numChunks msg 64
  let h ← loop n (hashStepWith comp msg) h
  let d ← arrToBeBytes 8 h
  arrFromSeq 32 d

end Hacspec.Sha2

namespace Hacspec.Fips202

open SecretInt Hacspec.Seq

/-- `fips202.rs:115-122` `absorb_block`; `f` stands for `keccakf1600`. -/
def absorbBlockWith (f : List U64 → M (List U64)) (s : List U64) (block : List U8) : M (List U64) := do
  let s ← loop block.length (absorbByte block) s
  f s

/-- `fips202.rs:132-134` the permutation between output blocks. -/
def squeezeNextWith (f : List U64 → M (List U64)) (i rate : Nat) (s : List U64) : M (List U64) :=
  if (i + 1) % rate = 0 then f s else .ok s

/-- `fips202.rs:126-135` body of the loop of `squeeze`. -/
def squeezeStepWith (f : List U64 → M (List U64)) (rate i : Nat) (st : List U64 × List U8) : M (List U64 × List U8) := do
  let pos := i % rate
  let x ← idx st.1 (pos / 8)
  let y ← shrU x (8 * (pos % 8))
  let out ← setIdx st.2 i (castU 8 (y &&& classify 0xff#64))
  let s ← squeezeNextWith f i rate st.1
  .ok (s, out)

/-- `fips202.rs:124-137` `squeeze`. -/
def squeezeWith (f : List U64 → M (List U64)) (s : List U64) (nbytes rate : Nat) : M (List U8) := do
  let st ← loop nbytes (squeezeStepWith f rate) (s, new nbytes)
  .ok st.2

/-- `fips202.rs:146-151` the two cases of the body of the loop of `keccak`. -/
def absorbBranchWith (f : List U64 → M (List U64)) (rate blockLen : Nat) (block : List U8) (st : Sponge) : M Sponge :=
  if blockLen = rate then do
    let s ← absorbBlockWith f st.s block
    .ok { st with s := s }
  else do
    let buf ← updateStart st.buf block
    .ok { st with buf := buf, lastBlockLen := blockLen }

/-- `fips202.rs:144-152` body of the loop of `keccak`. -/
def absorbStepWith (f : List U64 → M (List U64)) (rate : Nat) (data : List U8) (i : Nat) (st : Sponge) : M Sponge := do
  let c ← getChunk data rate i
  absorbBranchWith f rate c.1 c.2 st

/-- `fips202.rs:139-158` `keccak`. -/
def keccakWith (f : List U64 → M (List U64)) (rate : Nat) (data : List U8) (p : U8) (outbytes : Nat) : M (List U8) := do
  let n ← numChunks data rate
  let st ← loop n (absorbStepWith f rate data) ⟨new rate, 0, new 25⟩
  let buf ← padBuf rate p st.lastBlockLen st.buf
  let s ← absorbBlockWith f st.s buf
  squeezeWith f s outbytes rate

end Hacspec.Fips202
