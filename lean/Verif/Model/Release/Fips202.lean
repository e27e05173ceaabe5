import Verif.Model.Release.Seq
import Verif.Model.Fips202

/-! # SHA-3 and SHAKE in a release build

The functions of `Verif/Model/` that reach a `debug_assert!`, a checked sum or product, or a shift; the others are the
same in both builds and used as they are. -/

namespace Hacspec.Release.Fips202

open SecretInt hiding shl shrU shrS negS
open Release.Seq
open Hacspec.Seq (new)
open Hacspec.Fips202 (xorAt keccakf1600 squeezeNext Sponge padBuf)

/-- `fips202.rs:116-120` body of the loop of `absorb_block`. -/
def absorbByte (block : List U8) (i : Nat) (s : List U64) : M (List U64) := do
  let b ← idx block i
  let x ← shl (castU 64 b) (8 * (i % 8))
  xorAt s (i / 8) x

/-- `fips202.rs:115-122` `absorb_block`; `i >> 3` and `i & 7` are written `i / 8` and `i % 8`. -/
def absorbBlock (s : List U64) (block : List U8) : M (List U64) := do
  let s ← loop block.length (absorbByte block) s
  keccakf1600 s

/-- `fips202.rs:126-135` body of the loop of `squeeze`; the state is `(s, out)`. -/
def squeezeStep (rate i : Nat) (st : List U64 × List U8) : M (List U64 × List U8) := do
  let pos := i % rate
  let x ← idx st.1 (pos / 8)
  let y ← shrU x (8 * (pos % 8))
  let out ← setIdx st.2 i (castU 8 (y &&& classify 0xff#64))
  let s ← squeezeNext i rate st.1
  .ok (s, out)

/-- `fips202.rs:124-137` `squeeze`; `rate` is one of the positive constants of L5-10. -/
def squeeze (s : List U64) (nbytes rate : Nat) : M (List U8) := do
  let st ← loop nbytes (squeezeStep rate) (s, new nbytes)
  .ok st.2

/-- `fips202.rs:146-151` the two cases of the body of the loop of `keccak`. -/
def absorbBranch (rate blockLen : Nat) (block : List U8) (st : Sponge) : M Sponge :=
  if blockLen = rate then do
    let s ← absorbBlock st.s block
    .ok { st with s := s }
  else do
    let buf ← updateStart st.buf block
    .ok { st with buf := buf, lastBlockLen := blockLen }

/-- `fips202.rs:144-152` body of the loop of `keccak`. -/
def absorbStep (rate : Nat) (data : List U8) (i : Nat) (st : Sponge) : M Sponge := do
  let c ← getChunk data rate i
  absorbBranch rate c.1 c.2 st

/-- `fips202.rs:139-158` `keccak`. -/
def keccak (rate : Nat) (data : List U8) (p : U8) (outbytes : Nat) : M (List U8) := do
  let n ← numChunks data rate
  let st ← loop n (absorbStep rate data) ⟨new rate, 0, new 25⟩
  let buf ← padBuf rate p st.lastBlockLen st.buf
  let s ← absorbBlock st.s buf
  squeeze s outbytes rate

/-- `fips202.rs:160-163` `sha3224`. -/
def sha3224 (data : List U8) : M (List U8) := do
  let t ← keccak 144 data 0x06#8 28
  arrFromSeq 28 t

/-- `fips202.rs:165-168` `sha3256`. -/
def sha3256 (data : List U8) : M (List U8) := do
  let t ← keccak 136 data 0x06#8 32
  arrFromSeq 32 t

/-- `fips202.rs:170-173` `sha3384`. -/
def sha3384 (data : List U8) : M (List U8) := do
  let t ← keccak 104 data 0x06#8 48
  arrFromSeq 48 t

/-- `fips202.rs:175-178` `sha3512`. -/
def sha3512 (data : List U8) : M (List U8) := do
  let t ← keccak 72 data 0x06#8 64
  arrFromSeq 64 t

/-- `fips202.rs:180-182` `shake128`. -/
def shake128 (data : List U8) (outlen : Nat) : M (List U8) := keccak 168 data 0x1f#8 outlen

/-- `fips202.rs:184-186` `shake256`. -/
def shake256 (data : List U8) (outlen : Nat) : M (List U8) := keccak 136 data 0x1f#8 outlen


end Hacspec.Release.Fips202
