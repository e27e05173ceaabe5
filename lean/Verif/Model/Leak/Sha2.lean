import Verif.Model.Leak.Seq
import Verif.Model.Hmac

/-! # `Verif/Model/Sha2.lean` and `Verif/Model/Hmac.lean`, with the visible events -/

namespace Hacspec.Leak.Sha2

open SecretInt (shrU rotr)
open Leak.Seq
open Hacspec.Seq (new)
open Hacspec.Sha2 (ch maj opTable kTable initial)

/-- `sha2.rs:34-38` the third operand. -/
def sigmaTmp (x : U32) (t : U8) (op : Nat) : L U32 :=
  branch (op = 0) (lift (shrU x t.toNat)) (.ok (rotr x t.toNat))

/-- `sha2.rs:32-40` `sigma`. -/
def sigma (x : U32) (i op : Nat) : L U32 := do
  let t ← arrFromPublicSlice 12 opTable
  let t2 ← idx t (3 * i + 2)
  let tmp ← sigmaTmp x t2 op
  let t0 ← idx t (3 * i)
  let t1 ← idx t (3 * i + 1)
  .ok (rotr x t0.toNat ^^^ rotr x t1.toNat ^^^ tmp)

/-- `sha2.rs:46-56` body of the loop of `schedule`. -/
def scheduleStep (b : List U32) (i : Nat) (s : List U32) : L (List U32) :=
  branch (i < 16)
    (do
      let x ← idx b i
      setIdx s i x)
    (do
      let t16 ← idx s (i - 16)
      let t15 ← idx s (i - 15)
      let t7 ← idx s (i - 7)
      let t2 ← idx s (i - 2)
      let s1 ← sigma t2 3 0
      let s0 ← sigma t15 2 0
      setIdx s i (SecretInt.add (SecretInt.add (SecretInt.add s1 t7) s0) t16))

/-- `sha2.rs:42-59` `schedule`. -/
def schedule (block : List U8) : L (List U32) := do
  let b ← arrToBeWords 32 64 block
  loop 64 (scheduleStep b) (new 64)

/-- `sha2.rs:131-151` body of the loop of `shuffle`. -/
def shuffleStep (k ws : List U32) (i : Nat) (h : List U32) : L (List U32) := do
  let a0 ← idx h 0
  let b0 ← idx h 1
  let c0 ← idx h 2
  let d0 ← idx h 3
  let e0 ← idx h 4
  let f0 ← idx h 5
  let g0 ← idx h 6
  let h0 ← idx h 7
  let se ← sigma e0 1 1
  let ki ← idx k i
  let wi ← idx ws i
  let t1 := SecretInt.add (SecretInt.add (SecretInt.add (SecretInt.add h0 se) (ch e0 f0 g0)) ki) wi
  let sa ← sigma a0 0 1
  let t2 := SecretInt.add sa (maj a0 b0 c0)
  let h ← setIdx h 0 (SecretInt.add t1 t2)
  let h ← setIdx h 1 a0
  let h ← setIdx h 2 b0
  let h ← setIdx h 3 c0
  let h ← setIdx h 4 (SecretInt.add d0 t1)
  let h ← setIdx h 5 e0
  let h ← setIdx h 6 f0
  setIdx h 7 g0

/-- `sha2.rs:61-153` `shuffle`. -/
def shuffle (ws hashi : List U32) : L (List U32) := do
  let k ← arrFromPublicSlice 64 kTable
  loop 64 (shuffleStep k ws) hashi

/-- `sha2.rs:155-162` `compress`. -/
def compress (block : List U8) (hIn : List U32) : L (List U32) := do
  let s ← schedule block
  let h ← shuffle s hIn
  loop 8 (fun i h => do
    let x ← idx h i
    let y ← idx hIn i
    setIdx h i (SecretInt.add x y)) h

/-- `sha2.rs:172-187` the case of an incomplete block.  `msg.len() * 8` is checked `usize` arithmetic. -/
def lastBlock (msgLen blockLen : Nat) (block : List U8) (h : List U32) : L (List U32) := do
  let b ← updateStart (new 64) block
  let last ← update (new 64) 0 b
  let last ← setIdx last blockLen 0x80#8
  require (msgLen * 8 < 2 ^ 64)
  let lenBist : U64 := BitVec.ofNat 64 (msgLen * 8)
  branch (blockLen < 64 - 8)
    (do
      let lb ← wordToBeBytes lenBist
      let last ← update last (64 - 8) lb
      compress last h)
    (do
      let lb ← wordToBeBytes lenBist
      let padBlock ← update (new 64) (64 - 8) lb
      let h ← compress last h
      compress padBlock h)

/-- `sha2.rs:170-191` body of the loop of `hash`. -/
def hashStep (msg : List U8) (i : Nat) (h : List U32) : L (List U32) := do
  let lb ← getChunk msg 64 i
  branch (lb.1 < 64)
    (lastBlock msg.length lb.1 lb.2 h)
    (do
      let b ← updateStart (new 64) lb.2
      compress b h)

/-- `sha2.rs:164-193` `hash`. -/
def hash (msg : List U8) : L (List U8) := do
  let h ← arrFromPublicSlice 8 initial
  let n ← numChunks msg 64
  let h ← loop n (hashStep msg) h
  let d ← arrToBeBytes 8 h
  arrFromSeq 32 d

end Hacspec.Leak.Sha2

namespace Hacspec.Leak.Hmac

open Leak.Seq Leak.VecInt
open Hacspec.Seq (new)

/-- `hmac.rs:31-35` the key block. -/
def keyBlock (k : List U8) : L (List U8) :=
  branch (64 < k.length)
    (do
      let h ← Sha2.hash k
      updateStart (new 64) h)
    (updateStart (new 64) k)

/-- `hmac.rs:41-44, 46-49` a block followed by a string.  The sum `BLOCK_LEN + txt.len()` is below `2^64` for every
allocation and not checked here. -/
def blockThen (b txt : List U8) : L (List U8) := do
  let h ← update (new (64 + txt.length)) 0 b
  update h 64 txt

/-- `hmac.rs:15-50` `hmac`; the literals of `i_pad` and `o_pad` (L16-29) are 64 equal bytes each. -/
def hmac (k txt : List U8) : L (List U8) := do
  let iPad ← arrFromPublicSlice 64 (List.replicate 64 0x36#8)
  let oPad ← arrFromPublicSlice 64 (List.replicate 64 0x5c#8)
  let kBlock ← keyBlock k
  let kIpad ← arrXorSecret 64 kBlock iPad
  let kOpad ← arrXorSecret 64 kBlock oPad
  let hIn ← blockThen kIpad txt
  let hInner ← Sha2.hash hIn
  let hIn ← blockThen kOpad hInner
  let d ← Sha2.hash hIn
  arrFromSeq 32 d

end Hacspec.Leak.Hmac

namespace Hacspec.Leak.Hkdf

open Leak.Seq
open Hacspec.Seq (new)
open Hacspec.Hkdf (divCeil32)

/-- `hkdf.rs:18-21` -/
def saltOrZero (salt : List U8) : L (List U8) :=
  branch (0 < salt.length) (fromSeq salt) (.ok (new 32))

/-- `hkdf.rs:17-23` `extract`. -/
def extract (salt ikm : List U8) : L (List U8) := do
  let s ← saltOrZero salt
  let h ← Hmac.hmac s ikm
  arrFromSeq 32 h

/-- `hkdf.rs:25-31` `build_hmac_txt`. -/
def buildHmacTxt (t info : List U8) (iteration : U8) : L (List U8) := do
  let out ← update (new (t.length + info.length + 1)) 0 t
  let out ← update out t.length info
  setIdx out (t.length + info.length) iteration

/-- `hkdf.rs:51-55` the text of iteration `i`; `i + 1` is `u8` arithmetic (`i < n < 255`). -/
def hmacTxtIn (info tI : List U8) (i : Nat) : L (List U8) :=
  branch (i = 0)
    (buildHmacTxt (new 0) info (BitVec.ofNat 8 (i + 1)))
    (do
      let t ← fromSeq tI
      buildHmacTxt t info (BitVec.ofNat 8 (i + 1)))

/-- `hkdf.rs:50-58` body of the loop; the state is `(t_i, t)`. -/
def expandStep (prk info : List U8) (i : Nat) (st : List U8 × List U8) : L (List U8 × List U8) := do
  let txt ← hmacTxtIn info st.1 i
  let tI ← Hmac.hmac prk txt
  let t ← update st.2 (i * tI.length) tI
  .ok (tI, t)

/-- `hkdf.rs:43-60` `expand`, with the `debug_assert!` of L45. -/
def expand (prk info : List U8) (l : Nat) : L (List U8) := do
  let n := divCeil32 l
  require (n < 255)
  let st ← loop n (expandStep prk info) (new 32, new (n * 32))
  sub st.2 0 l

end Hacspec.Leak.Hkdf
