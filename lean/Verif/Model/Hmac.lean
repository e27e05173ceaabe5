import Verif.Model.Sha2
import Verif.Model.VecInt

/-! # HMAC and HKDF: `spec-examples/src/hmac/hmac.rs`, `spec-examples/src/hkdf/hkdf.rs` -/

namespace Hacspec.Hmac

open SecretInt Hacspec.Seq VecInt

/-- `hmac.rs:31-35` the key block. -/
def keyBlock (k : List U8) : M (List U8) :=
  if 64 < k.length then do
    let h ← Sha2.hash k
    updateStart (new 64) h
  else updateStart (new 64) k

/-- `hmac.rs:41-44, 46-49` a block followed by a string.  The sum `BLOCK_LEN + txt.len()` is below `2^64` for every
allocation and not checked here. -/
def blockThen (b txt : List U8) : M (List U8) := do
  let h ← update (new (64 + txt.length)) 0 b
  update h 64 txt

/-- `hmac.rs:15-50` `hmac`; the literals of `i_pad` and `o_pad` (L16-29) are 64 equal bytes each. -/
def hmac (k txt : List U8) : M (List U8) := do
  let iPad ← arrFromPublicSlice 64 (List.replicate 64 0x36#8)
  let oPad ← arrFromPublicSlice 64 (List.replicate 64 0x5c#8)
  let kBlock ← keyBlock k
  let kIpad ← arrXorSecret 64 kBlock iPad
  let kOpad ← arrXorSecret 64 kBlock oPad
  let hIn ← blockThen kIpad txt
  let hInner ← Sha2.hash hIn
  let hIn ← blockThen kOpad hInner
  let d ← Sha2.hash hIn
  arrFromSeq 32 d

end Hacspec.Hmac

namespace Hacspec.Hkdf

open SecretInt Hacspec.Seq

/-- `hkdf.rs:18-21` -/
def saltOrZero (salt : List U8) : M (List U8) :=
  if 0 < salt.length then fromSeq salt else .ok (new 32)

/-- `hkdf.rs:17-23` `extract`. -/
def extract (salt ikm : List U8) : M (List U8) := do
  let s ← saltOrZero salt
  let h ← Hmac.hmac s ikm
  arrFromSeq 32 h

/-- `hkdf.rs:25-31` `build_hmac_txt`. -/
def buildHmacTxt (t info : List U8) (iteration : U8) : M (List U8) := do
  let out ← update (new (t.length + info.length + 1)) 0 t
  let out ← update out t.length info
  setIdx out (t.length + info.length) iteration

/-- `a as f64` as a natural number: 53 significant bits, ties to even (`hkdf.rs:37`). -/
def f64OfNat (a : Nat) : Nat :=
  if a < 2 ^ 53 then a
  else
    let s := a.log2 - 52
    let q := a / 2 ^ s
    let r := a % 2 ^ s
    let up := 2 ^ s < 2 * r ∨ (2 ^ s = 2 * r ∧ q % 2 = 1)
    (if up then q + 1 else q) * 2 ^ s

/-- `hkdf.rs:36-38` `div_ceil(a, 32)`: dividing a double by 32 is exact, and so is rounding up. -/
def divCeil32 (a : Nat) : Nat := (f64OfNat a + 31) / 32

/-- `hkdf.rs:51-55` the text of iteration `i`; `i + 1` is `u8` arithmetic (`i < n < 255`). -/
def hmacTxtIn (info tI : List U8) (i : Nat) : M (List U8) :=
  if i = 0 then buildHmacTxt (new 0) info (BitVec.ofNat 8 (i + 1))
  else do
    let t ← fromSeq tI
    buildHmacTxt t info (BitVec.ofNat 8 (i + 1))

/-- `hkdf.rs:50-58` body of the loop; the state is `(t_i, t)`. -/
def expandStep (prk info : List U8) (i : Nat) (st : List U8 × List U8) : M (List U8 × List U8) := do
  let txt ← hmacTxtIn info st.1 i
  let tI ← Hmac.hmac prk txt
  let t ← update st.2 (i * tI.length) tI
  .ok (tI, t)

/-- `hkdf.rs:43-60` `expand`, with the `debug_assert!` of L45. -/
def expand (prk info : List U8) (l : Nat) : M (List U8) := do
  let n := divCeil32 l
  require (n < 255)
  let st ← loop n (expandStep prk info) (new 32, new (n * 32))
  sub st.2 0 l

end Hacspec.Hkdf
