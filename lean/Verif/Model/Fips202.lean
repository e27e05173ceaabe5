import Verif.Model.SecretInt
import Verif.Model.Seq

/-! # Model of `spec-examples/src/fips202/fips202.rs` -/

namespace Hacspec.Fips202

open SecretInt Hacspec.Seq

/-- `fips202.rs:19-44` `ROUNDCONSTANTS`. -/
def roundConstants : List U64 := [
  0x0000000000000001, 0x0000000000008082, 0x800000000000808a, 0x8000000080008000,
  0x000000000000808b, 0x0000000080000001, 0x8000000080008081, 0x8000000000008009,
  0x000000000000008a, 0x0000000000000088, 0x0000000080008009, 0x000000008000000a,
  0x000000008000808b, 0x800000000000008b, 0x8000000000008089, 0x8000000000008003,
  0x8000000000008002, 0x8000000000000080, 0x000000000000800a, 0x800000008000000a,
  0x8000000080008081, 0x8000000000008080, 0x0000000080000001, 0x8000000080008008]

/-- `fips202.rs:46-48` `ROTC`. -/
def rotc : List Nat :=
  [0, 1, 62, 28, 27, 36, 44, 6, 55, 20, 3, 10, 43, 25, 39, 41, 45, 15, 21, 8, 18, 2, 61, 56, 14]

/-- `fips202.rs:50-52` `PI`. -/
def piTable : List Nat :=
  [0, 6, 12, 18, 24, 3, 9, 10, 16, 22, 1, 7, 13, 19, 20, 4, 5, 11, 17, 23, 2, 8, 14, 15, 21]

/-- `fips202.rs:56-58` body of the first loop of `theta`. -/
def thetaRow (s : List U64) (i : Nat) (b : List U64) : M (List U64) := do
  let s0 ← idx s i
  let s1 ← idx s (i + 5)
  let s2 ← idx s (i + 10)
  let s3 ← idx s (i + 15)
  let s4 ← idx s (i + 20)
  setIdx b i (s0 ^^^ s1 ^^^ s2 ^^^ s3 ^^^ s4)

/-- `fips202.rs:63`, `93`, `119` `s[k] ^= t`. -/
def xorAt (s : List U64) (k : Nat) (t : U64) : M (List U64) := do
  let x ← idx s k
  setIdx s k (x ^^^ t)

/-- `fips202.rs:59-65` body of the second loop of `theta`. -/
def thetaColumn (b : List U64) (i : Nat) (s : List U64) : M (List U64) := do
  let u ← idx b ((i + 1) % 5)
  let v ← idx b ((i + 4) % 5)
  let t := v ^^^ rotl u 1
  loop 5 (fun j s => xorAt s (5 * j + i) t) s

/-- `fips202.rs:54-67` `theta`. -/
def theta (s : List U64) : M (List U64) := do
  let b ← loop 5 (thetaRow s) (new 5)
  loop 5 (thetaColumn b) s

/-- `fips202.rs:69-75` `rho`. -/
def rho (s : List U64) : M (List U64) :=
  loop 25 (fun i s => do
    let u ← idx s i
    let r ← idx rotc i
    setIdx s i (rotl u r)) s

/-- `fips202.rs:77-83` `pi`. -/
def pi (s : List U64) : M (List U64) :=
  loop 25 (fun i v => do
    let k ← idx piTable i
    let x ← idx s k
    setIdx v i x) (new 25)

/-- `fips202.rs:88-90` copies a row. -/
def chiCopy (s : List U64) (i : Nat) (b : List U64) : M (List U64) :=
  loop 5 (fun j b => do
    let x ← idx s (5 * i + j)
    setIdx b j x) b

/-- `fips202.rs:91-94` rewrites a row. -/
def chiRow (b : List U64) (i : Nat) (s : List U64) : M (List U64) :=
  loop 5 (fun j s => do
    let u ← idx b ((j + 1) % 5)
    let v ← idx b ((j + 2) % 5)
    xorAt s (5 * i + j) (~~~ u &&& v)) s

/-- `fips202.rs:85-97` `chi`; the state of the outer loop is `(s, b)`. -/
def chi (s : List U64) : M (List U64) := do
  let r ← loop 5 (fun i (st : List U64 × List U64) => do
    let b ← chiCopy st.1 i st.2
    let s ← chiRow b i st.1
    .ok (s, b)) (s, new 5)
  .ok r.1

/-- `fips202.rs:99-102` `iota`. -/
def iota (s : List U64) (rndconst : U64) : M (List U64) := xorAt s 0 (classify rndconst)

/-- `fips202.rs:105-111` body of the loop of `keccakf1600`. -/
def roundStep (i : Nat) (s : List U64) : M (List U64) := do
  let s ← theta s
  let s ← rho s
  let s ← pi s
  let s ← chi s
  let c ← idx roundConstants i
  iota s c

/-- `fips202.rs:104-113` `keccakf1600`. -/
def keccakf1600 (s : List U64) : M (List U64) := loop 24 roundStep s

/-- `fips202.rs:116-120` body of the loop of `absorb_block`. -/
def absorbByte (block : List U8) (i : Nat) (s : List U64) : M (List U64) := do
  let b ← idx block i
  let x ← shl (castU 64 b) (8 * (i % 8))
  xorAt s (i / 8) x

/-- `fips202.rs:115-122` `absorb_block`; `i >> 3` and `i & 7` are written `i / 8` and `i % 8`. -/
def absorbBlock (s : List U64) (block : List U8) : M (List U64) := do
  let s ← loop block.length (absorbByte block) s
  keccakf1600 s

/-- `fips202.rs:132-134` the permutation between output blocks. -/
def squeezeNext (i rate : Nat) (s : List U64) : M (List U64) :=
  if (i + 1) % rate = 0 then keccakf1600 s else .ok s

/-- `fips202.rs:126-135` body of the loop of `squeeze`; the state is `(s, out)`. -/
def squeezeStep (rate i : Nat) (st : List U64 × List U8) : M (List U64 × List U8) := do
  let pos := i % rate
  let x ← idx st.1 (pos / 8)
  let y ← shrU x (8 * (pos % 8))
  let out ← setIdx st.2 i (castU 8 (y &&& classify 0xff#64))
  let s ← squeezeNext i rate st.1
  .ok (s, out)

/-- `fips202.rs:124-137` `squeeze`; `rate` is one of the positive constants of L5-10. -/
def squeeze (s : List U64) (nbytes rate : Nat) : M (List U8) := do
  let st ← loop nbytes (squeezeStep rate) (s, new nbytes)
  .ok st.2

/-- State of the loop of `keccak`. -/
structure Sponge where
  buf : List U8
  lastBlockLen : Nat
  s : List U64

/-- `fips202.rs:146-151` the two cases of the body of the loop of `keccak`. -/
def absorbBranch (rate blockLen : Nat) (block : List U8) (st : Sponge) : M Sponge :=
  if blockLen = rate then do
    let s ← absorbBlock st.s block
    .ok { st with s := s }
  else do
    let buf ← updateStart st.buf block
    .ok { st with buf := buf, lastBlockLen := blockLen }

/-- `fips202.rs:144-152` body of the loop of `keccak`. -/
def absorbStep (rate : Nat) (data : List U8) (i : Nat) (st : Sponge) : M Sponge := do
  let c ← getChunk data rate i
  absorbBranch rate c.1 c.2 st

/-- `fips202.rs:153-154` the padding of the last block. -/
def padBuf (rate : Nat) (p : U8) (lastBlockLen : Nat) (buf : List U8) : M (List U8) := do
  let buf ← setIdx buf lastBlockLen p
  let x ← idx buf (rate - 1)
  setIdx buf (rate - 1) (x ||| 128#8)

/-- `fips202.rs:139-158` `keccak`. -/
def keccak (rate : Nat) (data : List U8) (p : U8) (outbytes : Nat) : M (List U8) := do
  let n ← numChunks data rate
  let st ← loop n (absorbStep rate data) ⟨new rate, 0, new 25⟩
  let buf ← padBuf rate p st.lastBlockLen st.buf
  let s ← absorbBlock st.s buf
  squeeze s outbytes rate

/-- `fips202.rs:160-163` `sha3224`. -/
def sha3224 (data : List U8) : M (List U8) := do
  let t ← keccak 144 data 0x06#8 28
  arrFromSeq 28 t

/-- `fips202.rs:165-168` `sha3256`. -/
def sha3256 (data : List U8) : M (List U8) := do
  let t ← keccak 136 data 0x06#8 32
  arrFromSeq 32 t

/-- `fips202.rs:170-173` `sha3384`. -/
def sha3384 (data : List U8) : M (List U8) := do
  let t ← keccak 104 data 0x06#8 48
  arrFromSeq 48 t

/-- `fips202.rs:175-178` `sha3512`. -/
def sha3512 (data : List U8) : M (List U8) := do
  let t ← keccak 72 data 0x06#8 64
  arrFromSeq 64 t

/-- `fips202.rs:180-182` `shake128`. -/
def shake128 (data : List U8) (outlen : Nat) : M (List U8) := keccak 168 data 0x1f#8 outlen

/-- `fips202.rs:184-186` `shake256`. -/
def shake256 (data : List U8) (outlen : Nat) : M (List U8) := keccak 136 data 0x1f#8 outlen

end Hacspec.Fips202
