import Verif.Model.Hmac
import Verif.Model.IdealSha

/-! # HMAC and HKDF with the hash function as a parameter, and with a block cipher inside SHA-256

The definitions of `Verif.Model.Hmac` once more, with the calls of `sha2::hash` (`hmac.rs:32`, `44`, `49`) replaced by calls of a
function that is passed in. -/

namespace Hacspec.Hmac

open SecretInt Hacspec.Seq VecInt

/-- `hmac.rs:31-35` the key block. -/
def keyBlockWith (hash : List U8 → M (List U8)) (k : List U8) : M (List U8) :=
  if 64 < k.length then do
    let h ← hash k
    updateStart (new 64) h
  else updateStart (new 64) k

/-- `hmac.rs:15-50` `hmac`. -/
def hmacWith (hash : List U8 → M (List U8)) (k txt : List U8) : M (List U8) := do
  let iPad ← arrFromPublicSlice 64 (List.replicate 64 0x36#8)
  let oPad ← arrFromPublicSlice 64 (List.replicate 64 0x5c#8)
  let kBlock ← keyBlockWith hash k
  let kIpad ← arrXorSecret 64 kBlock iPad
  let kOpad ← arrXorSecret 64 kBlock oPad
  let hIn ← blockThen kIpad txt
  let hInner ← hash hIn
  let hIn ← blockThen kOpad hInner
  let d ← hash hIn
  arrFromSeq 32 d

end Hacspec.Hmac

namespace Hacspec.Hkdf

open SecretInt Hacspec.Seq

/-- `hkdf.rs:17-23` `extract`. -/
def extractWith (hash : List U8 → M (List U8)) (salt ikm : List U8) : M (List U8) := do
  let s ← saltOrZero salt
  let h ← Hmac.hmacWith hash s ikm
  arrFromSeq 32 h

/-- `hkdf.rs:50-58` body of the loop; the state is `(t_i, t)`. -/
def expandStepWith (hash : List U8 → M (List U8)) (prk info : List U8) (i : Nat) (st : List U8 × List U8) : M (List U8 × List U8) := do
  let txt ← hmacTxtIn info st.1 i
  let tI ← Hmac.hmacWith hash prk txt
  let t ← update st.2 (i * tI.length) tI
  .ok (tI, t)

/-- `hkdf.rs:43-60` `expand`, with the `debug_assert!` of L45. -/
def expandWith (hash : List U8 → M (List U8)) (prk info : List U8) (l : Nat) : M (List U8) := do
  let n := divCeil32 l
  require (n < 255)
  let st ← loop n (expandStepWith hash prk info) (new 32, new (n * 32))
  sub st.2 0 l

end Hacspec.Hkdf

namespace Hacspec.Ideal

open Spec

/-- `hmac.rs:15-50` `hmac` with a block cipher inside `hash`. -/
def hmac (E : Bytes 64 → Equiv.Perm (Words 32 8)) (k txt : List U8) : M (List U8) := Hmac.hmacWith (sha E) k txt

/-- `hkdf.rs:17-23` `extract` with a block cipher inside `hash`. -/
def extract (E : Bytes 64 → Equiv.Perm (Words 32 8)) (salt ikm : List U8) : M (List U8) := Hkdf.extractWith (sha E) salt ikm

/-- `hkdf.rs:43-60` `expand` with a block cipher inside `hash`. -/
def expand (E : Bytes 64 → Equiv.Perm (Words 32 8)) (prk info : List U8) (l : Nat) : M (List U8) := Hkdf.expandWith (sha E) prk info l

end Hacspec.Ideal
