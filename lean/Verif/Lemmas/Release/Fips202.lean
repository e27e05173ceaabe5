import Verif.Lemmas.Release.Seq
import Verif.Model.Release.Fips202

/-! # SHA-3 and SHAKE: the release build returns what the debug build returns -/

namespace Hacspec.Release.Fips202

open Spec (Keeps)
open Release.Seq

theorem absorbByte_keeps {block : List U8} {i : Nat} {s : List U64} :
    Keeps (Hacspec.Fips202.absorbByte block i s) (absorbByte block i s) := by
  unfold Hacspec.Fips202.absorbByte absorbByte
  kp

macro_rules | `(tactic| kp_leaf) => `(tactic| with_reducible exact absorbByte_keeps)

theorem absorbBlock_keeps {s : List U64} {block : List U8} :
    Keeps (Hacspec.Fips202.absorbBlock s block) (absorbBlock s block) := by
  unfold Hacspec.Fips202.absorbBlock absorbBlock
  kp

macro_rules | `(tactic| kp_leaf) => `(tactic| with_reducible exact absorbBlock_keeps)

theorem squeezeStep_keeps {rate i : Nat} {st : List U64 × List U8} :
    Keeps (Hacspec.Fips202.squeezeStep rate i st) (squeezeStep rate i st) := by
  unfold Hacspec.Fips202.squeezeStep squeezeStep
  kp

macro_rules | `(tactic| kp_leaf) => `(tactic| with_reducible exact squeezeStep_keeps)

theorem squeeze_keeps {s : List U64} {nbytes rate : Nat} :
    Keeps (Hacspec.Fips202.squeeze s nbytes rate) (squeeze s nbytes rate) := by
  unfold Hacspec.Fips202.squeeze squeeze
  kp

macro_rules | `(tactic| kp_leaf) => `(tactic| with_reducible exact squeeze_keeps)

theorem absorbBranch_keeps {rate blockLen : Nat} {block : List U8} {st : Hacspec.Fips202.Sponge} :
    Keeps (Hacspec.Fips202.absorbBranch rate blockLen block st) (absorbBranch rate blockLen block st) := by
  unfold Hacspec.Fips202.absorbBranch absorbBranch
  kp

macro_rules | `(tactic| kp_leaf) => `(tactic| with_reducible exact absorbBranch_keeps)

theorem absorbStep_keeps {rate : Nat} {data : List U8} {i : Nat} {st : Hacspec.Fips202.Sponge} (hl : data.length + rate < 2 ^ 64) :
    Keeps (Hacspec.Fips202.absorbStep rate data i st) (absorbStep rate data i st) := by
  unfold Hacspec.Fips202.absorbStep absorbStep
  kp

macro_rules | `(tactic| kp_leaf) => `(tactic| with_reducible exact absorbStep_keeps ‹_›)

theorem keccak_keeps {rate : Nat} {data : List U8} {p : U8} {outbytes : Nat} :
    Keeps (Hacspec.Fips202.keccak rate data p outbytes) (keccak rate data p outbytes) := by
  unfold Hacspec.Fips202.keccak keccak
  refine Keeps.bind numChunks_keeps fun n hn => ?_
  have hl := numChunks_lt hn
  kp

macro_rules | `(tactic| kp_leaf) => `(tactic| with_reducible exact keccak_keeps)

theorem sha3224_keeps {data : List U8} :
    Keeps (Hacspec.Fips202.sha3224 data) (sha3224 data) := by
  unfold Hacspec.Fips202.sha3224 sha3224
  kp

macro_rules | `(tactic| kp_leaf) => `(tactic| with_reducible exact sha3224_keeps)

theorem sha3256_keeps {data : List U8} :
    Keeps (Hacspec.Fips202.sha3256 data) (sha3256 data) := by
  unfold Hacspec.Fips202.sha3256 sha3256
  kp

macro_rules | `(tactic| kp_leaf) => `(tactic| with_reducible exact sha3256_keeps)

theorem sha3384_keeps {data : List U8} :
    Keeps (Hacspec.Fips202.sha3384 data) (sha3384 data) := by
  unfold Hacspec.Fips202.sha3384 sha3384
  kp

macro_rules | `(tactic| kp_leaf) => `(tactic| with_reducible exact sha3384_keeps)

theorem sha3512_keeps {data : List U8} :
    Keeps (Hacspec.Fips202.sha3512 data) (sha3512 data) := by
  unfold Hacspec.Fips202.sha3512 sha3512
  kp

macro_rules | `(tactic| kp_leaf) => `(tactic| with_reducible exact sha3512_keeps)

theorem shake128_keeps {data : List U8} {outlen : Nat} :
    Keeps (Hacspec.Fips202.shake128 data outlen) (shake128 data outlen) := by
  unfold Hacspec.Fips202.shake128 shake128
  kp

macro_rules | `(tactic| kp_leaf) => `(tactic| with_reducible exact shake128_keeps)

theorem shake256_keeps {data : List U8} {outlen : Nat} :
    Keeps (Hacspec.Fips202.shake256 data outlen) (shake256 data outlen) := by
  unfold Hacspec.Fips202.shake256 shake256
  kp

macro_rules | `(tactic| kp_leaf) => `(tactic| with_reducible exact shake256_keeps)

end Hacspec.Release.Fips202
