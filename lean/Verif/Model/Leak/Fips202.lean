import Verif.Model.Leak.Seq
import Verif.Model.Fips202

/-! # `Verif/Model/Fips202.lean`, with the visible events -/

namespace Hacspec.Leak.Fips202

open SecretInt (classify rotl shl shrU castU)
open Leak.Seq
open Hacspec.Seq (new)
open Hacspec.Fips202 (roundConstants rotc piTable Sponge)

/-- `fips202.rs:56-58` body of the first loop of `theta`. -/
def thetaRow (s : List U64) (i : Nat) (b : List U64) : L (List U64) := do
  let s0 ← idx s i
  let s1 ← idx s (i + 5)
  let s2 ← idx s (i + 10)
  let s3 ← idx s (i + 15)
  let s4 ← idx s (i + 20)
  setIdx b i (s0 ^^^ s1 ^^^ s2 ^^^ s3 ^^^ s4)

/-- `fips202.rs:63`, `93`, `119` `s[k] ^= t`. -/
def xorAt (s : List U64) (k : Nat) (t : U64) : L (List U64) := do
  let x ← idx s k
  setIdx s k (x ^^^ t)

/-- `fips202.rs:59-65` body of the second loop of `theta`. -/
def thetaColumn (b : List U64) (i : Nat) (s : List U64) : L (List U64) := do
  let u ← idx b ((i + 1) % 5)
  let v ← idx b ((i + 4) % 5)
  let t := v ^^^ rotl u 1
  loop 5 (fun j s => xorAt s (5 * j + i) t) s

/-- `fips202.rs:54-67` `theta`. -/
def theta (s : List U64) : L (List U64) := do
  let b ← loop 5 (thetaRow s) (new 5)
  loop 5 (thetaColumn b) s

/-- `fips202.rs:69-75` `rho`. -/
def rho (s : List U64) : L (List U64) :=
  loop 25 (fun i s => do
    let u ← idx s i
    let r ← idx rotc i
    setIdx s i (rotl u r)) s

/-- `fips202.rs:77-83` `pi`. -/
def pi (s : List U64) : L (List U64) :=
  loop 25 (fun i v => do
    let k ← idx piTable i
    let x ← idx s k
    setIdx v i x) (new 25)

/-- `fips202.rs:88-90` copies a row. -/
def chiCopy (s : List U64) (i : Nat) (b : List U64) : L (List U64) :=
  loop 5 (fun j b => do
    let x ← idx s (5 * i + j)
    setIdx b j x) b

/-- `fips202.rs:91-94` rewrites a row. -/
def chiRow (b : List U64) (i : Nat) (s : List U64) : L (List U64) :=
  loop 5 (fun j s => do
    let u ← idx b ((j + 1) % 5)
    let v ← idx b ((j + 2) % 5)
    xorAt s (5 * i + j) (~~~ u &&& v)) s

/-- `fips202.rs:85-97` `chi`; the state of the outer loop is `(s, b)`. -/
def chi (s : List U64) : L (List U64) := do
  let r ← loop 5 (fun i (st : List U64 × List U64) => do
    let b ← chiCopy st.1 i st.2
    let s ← chiRow b i st.1
    .ok (s, b)) (s, new 5)
  .ok r.1

/-- `fips202.rs:99-102` `iota`. -/
def iota (s : List U64) (rndconst : U64) : L (List U64) := xorAt s 0 (classify rndconst)

/-- `fips202.rs:105-111` body of the loop of `keccakf1600`. -/
def roundStep (i : Nat) (s : List U64) : L (List U64) := do
  let s ← theta s
  let s ← rho s
  let s ← pi s
  let s ← chi s
  let c ← idx roundConstants i
  iota s c

/-- `fips202.rs:104-113` `keccakf1600`. -/
def keccakf1600 (s : List U64) : L (List U64) := loop 24 roundStep s

/-- `fips202.rs:116-120` body of the loop of `absorb_block`. -/
def absorbByte (block : List U8) (i : Nat) (s : List U64) : L (List U64) := do
  let b ← idx block i
  let x ← lift (shl (castU 64 b) (8 * (i % 8)))
  xorAt s (i / 8) x

/-- `fips202.rs:115-122` `absorb_block`; `i >> 3` and `i & 7` are written `i / 8` and `i % 8`. -/
def absorbBlock (s : List U64) (block : List U8) : L (List U64) := do
  let s ← loop block.length (absorbByte block) s
  keccakf1600 s

/-- `fips202.rs:132-134` the permutation between output blocks. -/
def squeezeNext (i rate : Nat) (s : List U64) : L (List U64) :=
  branch ((i + 1) % rate = 0) (keccakf1600 s) (.ok s)

/-- `fips202.rs:126-135` body of the loop of `squeeze`; the state is `(s, out)`. -/
def squeezeStep (rate i : Nat) (st : List U64 × List U8) : L (List U64 × List U8) := do
  let pos := i % rate
  let x ← idx st.1 (pos / 8)
  let y ← lift (shrU x (8 * (pos % 8)))
  let out ← setIdx st.2 i (castU 8 (y &&& classify 0xff#64))
  let s ← squeezeNext i rate st.1
  .ok (s, out)

/-- `fips202.rs:124-137` `squeeze`; `rate` is one of the positive constants of L5-10. -/
def squeeze (s : List U64) (nbytes rate : Nat) : L (List U8) := do
  let st ← loop nbytes (squeezeStep rate) (s, new nbytes)
  .ok st.2

/-- `fips202.rs:146-151` the two cases of the body of the loop of `keccak`. -/
def absorbBranch (rate blockLen : Nat) (block : List U8) (st : Sponge) : L Sponge :=
  branch (blockLen = rate)
    (do
      let s ← absorbBlock st.s block
      .ok { st with s := s })
    (do
      let buf ← updateStart st.buf block
      .ok { st with buf := buf, lastBlockLen := blockLen })

/-- `fips202.rs:144-152` body of the loop of `keccak`. -/
def absorbStep (rate : Nat) (data : List U8) (i : Nat) (st : Sponge) : L Sponge := do
  let c ← getChunk data rate i
  absorbBranch rate c.1 c.2 st

/-- `fips202.rs:153-154` the padding of the last block. -/
def padBuf (rate : Nat) (p : U8) (lastBlockLen : Nat) (buf : List U8) : L (List U8) := do
  let buf ← setIdx buf lastBlockLen p
  let x ← idx buf (rate - 1)
  setIdx buf (rate - 1) (x ||| 128#8)

/-- `fips202.rs:139-158` `keccak`. -/
def keccak (rate : Nat) (data : List U8) (p : U8) (outbytes : Nat) : L (List U8) := do
  let n ← numChunks data rate
  let st ← loop n (absorbStep rate data) ⟨new rate, 0, new 25⟩
  let buf ← padBuf rate p st.lastBlockLen st.buf
  let s ← absorbBlock st.s buf
  squeeze s outbytes rate

/-- `fips202.rs:160-163` `sha3224`. -/
def sha3224 (data : List U8) : L (List U8) := do
  let t ← keccak 144 data 0x06#8 28
  arrFromSeq 28 t

/-- `fips202.rs:165-168` `sha3256`. -/
def sha3256 (data : List U8) : L (List U8) := do
  let t ← keccak 136 data 0x06#8 32
  arrFromSeq 32 t

/-- `fips202.rs:170-173` `sha3384`. -/
def sha3384 (data : List U8) : L (List U8) := do
  let t ← keccak 104 data 0x06#8 48
  arrFromSeq 48 t

/-- `fips202.rs:175-178` `sha3512`. -/
def sha3512 (data : List U8) : L (List U8) := do
  let t ← keccak 72 data 0x06#8 64
  arrFromSeq 64 t

/-- `fips202.rs:180-182` `shake128`. -/
def shake128 (data : List U8) (outlen : Nat) : L (List U8) := keccak 168 data 0x1f#8 outlen

/-- `fips202.rs:184-186` `shake256`. -/
def shake256 (data : List U8) (outlen : Nat) : L (List U8) := keccak 136 data 0x1f#8 outlen

end Hacspec.Leak.Fips202
