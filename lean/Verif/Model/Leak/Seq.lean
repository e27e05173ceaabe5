import Verif.Model.Leak.Base
import Verif.Model.VecInt

/-! # `Verif/Model/Seq.lean` and the operators of `Verif/Model/VecInt.lean`, with the visible events -/

namespace Hacspec.Leak.Seq

open SecretInt (classify chunks wordOfLe wordOfBe toLeBytes toBeBytes)
open Hacspec.Seq (new)

variable {α : Type} [Inhabited α]

/-- The iterations of a library iterator whose body is straight-line code. -/
def count (n : Nat) : L Unit := ⟨[.times n], .ok ()⟩

/-- `secret-integers/src/lib.rs:200-213` `from_le_bytes` (also `transmute.rs` for the free functions). -/
def fromLeBytes (w : Nat) (bytes : List U8) : L (List (BitVec w)) := do
  require (bytes.length % (w / 8) = 0)
  count (chunks (w / 8) bytes).length
  .ok ((chunks (w / 8) bytes).map (wordOfLe w))

/-- `secret-integers/src/lib.rs:226-239` `from_be_bytes`. -/
def fromBeBytes (w : Nat) (bytes : List U8) : L (List (BitVec w)) := do
  require (bytes.length % (w / 8) = 0)
  count (chunks (w / 8) bytes).length
  .ok ((chunks (w / 8) bytes).map (wordOfBe w))

/-- `traits.rs:28-41` `update_sub`.  If `start_out + len` overflows `usize` the code panics; so does the
model, because the sum exceeds the length. -/
def updateSub (self : List α) (startOut : Nat) (v : List α) (startIn len : Nat) : L (List α) := do
  require (self.length ≥ startOut + len)
  require (v.length ≥ startIn + len)
  loop len (fun i s => do
    let x ← idx v (startIn + i)
    setIdx s (startOut + i) x) self

/-- `traits.rs:56-59` `update`. -/
def update (self : List α) (start : Nat) (v : List α) : L (List α) :=
  updateSub self start v 0 v.length

/-- `traits.rs:62-65` `update_start`. -/
def updateStart (self : List α) (v : List α) : L (List α) := updateSub self 0 v 0 v.length

/-- `seq.rs:59-63` `Seq::from_sub`.  (Allocating more than `isize::MAX` bytes also panics; then the
window does not fit the input either.) -/
def fromSub (input : List α) (start len : Nat) : L (List α) := updateSub (new len) 0 input start len

/-- `seq.rs:66-68` `Seq::from_sub_range`; `r.end - r.start` panics on underflow. -/
def fromSubRange (input : List α) (rStart rEnd : Nat) : L (List α) := do
  require (rStart ≤ rEnd)
  fromSub input rStart (rEnd - rStart)

/-- `seq.rs:49-51`, `array.rs:77-79, 331-333` `sub`. -/
def sub (self : List α) (start len : Nat) : L (List α) := fromSub self start len

/-- `seq.rs:54-56`, `array.rs:82-84, 336-338` `subr`. -/
def subr (self : List α) (rStart rEnd : Nat) : L (List α) := do
  require (rStart ≤ rEnd)
  sub self rStart (rEnd - rStart)

/-- `seq.rs:71-76`, `array.rs:87-92, 341-346` `num_chunks`: `(len + chunk_size - 1) / chunk_size` in checked
64-bit `usize` arithmetic. -/
def numChunks (self : List α) (chunkSize : Nat) : L Nat := do
  require (self.length + chunkSize < 2 ^ 64)
  require (1 ≤ self.length + chunkSize)
  require (chunkSize ≠ 0)
  .ok ((self.length + chunkSize - 1) / chunkSize)

/-- `seq.rs:84-89, 101-106`, `array.rs:95-106, 349-360` the length of a chunk (`get_chunk_len`).  If
`chunk_size * chunk_number` overflows, the start lies beyond the end and the model panics too; if it does
not, `idx_start + chunk_size` can only overflow when `idx_start ≥ 2^63` is beyond the end. -/
def getChunkLen (self : List α) (chunkSize chunkNumber : Nat) : L Nat :=
  let idxStart := chunkSize * chunkNumber
  branch (idxStart + chunkSize > self.length)
    (do
      require (idxStart ≤ self.length)
      .ok (self.length - idxStart))
    (.ok chunkSize)

/-- `seq.rs:79-92`, `array.rs:109-118, 363-372` `get_chunk`. -/
def getChunk (self : List α) (chunkSize chunkNumber : Nat) : L (Nat × List α) := do
  let idxStart := chunkSize * chunkNumber
  let len ← getChunkLen self chunkSize chunkNumber
  let out ← sub self idxStart len
  .ok (len, out)

/-- `seq.rs:95-109`, `array.rs:121-131, 375-385` `set_chunk`. -/
def setChunk (self : List α) (chunkSize chunkNumber : Nat) (input : List α) : L (List α) := do
  let idxStart := chunkSize * chunkNumber
  let len ← getChunkLen self chunkSize chunkNumber
  require (input.length = len)
  updateSub self idxStart input 0 len

/-- Body shared by the element-by-element copies: `tmp[i] = x[i]`. -/
def copyStep (x : List α) (i : Nat) (tmp : List α) : L (List α) := do
  let e ← idx x i
  setIdx tmp i e

/-- `seq.rs:213-219` `Seq::from_seq`. -/
def fromSeq (x : List α) : L (List α) := loop x.length (copyStep x) (new x.length)

/-- `array.rs:47-54, 301-308` array `from_slice`. -/
def arrFromSlice (l : Nat) (v : List α) : L (List α) := do
  require (v.length ≤ l)
  loop v.length (copyStep v) (new l)

/-- `array.rs:64-69, 318-323` array `from_sub`. -/
def arrFromSub (l : Nat) (input : List α) (start len : Nat) : L (List α) := do
  require (len = l)
  updateSub (new l) 0 input start len

/-- `array.rs:72-74, 326-328` array `from_sub_range`. -/
def arrFromSubRange (l : Nat) (input : List α) (rStart rEnd : Nat) : L (List α) := do
  require (rStart ≤ rEnd)
  arrFromSub l input rStart (rEnd - rStart)

/-- `array.rs:219-226, 473-480` array `from_vec`. -/
def arrFromVec (l : Nat) (x : List α) : L (List α) := do
  require (x.length = l)
  loop x.length (copyStep x) (new l)

/-- `array.rs:231-238, 485-492` array `from_seq`. -/
def arrFromSeq (l : Nat) (x : List α) : L (List α) := do
  require (x.length = l)
  loop x.length (copyStep x) (new l)

/-- `array.rs:578-605` `from_public_slice`, `from_public_array` of secret arrays; `classify` is the
identity on bits. -/
def arrFromPublicSlice {w : Nat} (l : Nat) (v : List (BitVec w)) : L (List (BitVec w)) := do
  require (v.length = l)
  arrFromVec l (v.map classify)

/-- `array.rs:878-901` `both_arrays!`: `from_public`, `from_secret_declassify`. -/
def arrFromOther {w : Nat} (l : Nat) (v : List (BitVec w)) : L (List (BitVec w)) :=
  arrFromVec l (v.map classify)

/-- `array.rs:549-574` `to_be_bytes`/`to_le_bytes` of a word array of length `l`; `ser` is
`<$t>::to_be_bytes`/`to_le_bytes` on a one-element slice. -/
def arrToBytes {w : Nat} (l : Nat) (ser : List (BitVec w) → List U8) (self : List (BitVec w)) :
    L (List U8) :=
  let factor := w / 8
  loop l (fun i out => do
    let tmp ← idx self i
    let tmp := ser [tmp]
    loop factor (fun j out => do
      let b ← idx tmp j
      setIdx out (i * factor + j) b) out) (new (l * factor))

/-- `array.rs:549-560` `to_be_bytes`. -/
def arrToBeBytes {w : Nat} (l : Nat) (self : List (BitVec w)) : L (List U8) := arrToBytes l toBeBytes self

/-- `array.rs:563-574` `to_le_bytes`. -/
def arrToLeBytes {w : Nat} (l : Nat) (self : List (BitVec w)) : L (List U8) := arrToBytes l toLeBytes self

/-- `array.rs:650-707` `to_be_U32s`, `to_le_U32s`, `to_be_U64s`, ..., `to_U128s_le`.  `de` is the
(de)serialiser of `secret-integers` used by `U32_from_be_bytes` etc. (`transmute.rs:45-47, 50-52, ...`). -/
def arrToWords {w : Nat} (l : Nat) (de : List U8 → L (List (BitVec w))) (self : List U8) :
    L (List (BitVec w)) :=
  let k := w / 8
  let cs := chunks k self
  loop cs.length (fun i out => do
    let block ← idx cs i
    require (block.length = k)
    let s ← arrFromSlice k block
    let ws ← de s
    let x ← idx ws 0
    setIdx out i x) (new (l / k))

/-- `array.rs:650-657` etc. big-endian word views of secret byte arrays. -/
def arrToBeWords (w l : Nat) (self : List U8) : L (List (BitVec w)) := arrToWords l (fromBeBytes w) self

/-- `array.rs:660-667` etc. little-endian word views of secret byte arrays. -/
def arrToLeWords (w l : Nat) (self : List U8) : L (List (BitVec w)) := arrToWords l (fromLeBytes w) self

/-- `array.rs:737-785` `to_be_u32s` ... of public byte arrays: `uN::from_xe_bytes(to_array(block))`;
`to_array` (`util.rs:20-28`) panics when the lengths differ. -/
def arrToPubWords {w : Nat} (l : Nat) (de : List U8 → BitVec w) (self : List U8) : L (List (BitVec w)) :=
  let k := w / 8
  let cs := chunks k self
  loop cs.length (fun i out => do
    let block ← idx cs i
    require (block.length = k)
    setIdx out i (de block)) (new (l / k))

/-- `transmute.rs:8-10` ... `UN_to_le_bytes`. -/
def wordToLeBytes {w : Nat} (x : BitVec w) : L (List U8) := arrFromVec (w / 8) (toLeBytes [x])

/-- `transmute.rs:13-15` ... `UN_to_be_bytes`. -/
def wordToBeBytes {w : Nat} (x : BitVec w) : L (List U8) := arrFromVec (w / 8) (toBeBytes [x])

/-- `transmute.rs:18-20` ... `UN_from_be_bytes`. -/
def wordFromBeBytes (w : Nat) (s : List U8) : L (BitVec w) := do
  let ws ← fromBeBytes w s
  idx ws 0

/-- `transmute.rs:23-25` ... `UN_from_le_bytes`. -/
def wordFromLeBytes (w : Nat) (s : List U8) : L (BitVec w) := do
  let ws ← fromLeBytes w s
  idx ws 0


end Hacspec.Leak.Seq

namespace Hacspec.Leak.VecInt

open Hacspec.Seq (new)

variable {w : Nat}

/-- The loop `for i in 0..self.len() { out[i] = op(self[i], rhs[i]) }` used throughout
`vec_integers.rs`. -/
def zipLoop (op : BitVec w → BitVec w → L (BitVec w)) (self rhs out : List (BitVec w)) :
    L (List (BitVec w)) :=
  loop self.length (fun i out => do
    let a ← idx self i
    let b ← idx rhs i
    let c ← op a b
    setIdx out i c) out

/-- `vec_integers.rs:25-39, 532-546` (public, secret) `+` on arrays of length `l`. -/
def arrAdd (l : Nat) (self rhs : List (BitVec w)) : L (List (BitVec w)) := do
  require (self.length = rhs.length)
  zipLoop (fun a b => .ok (SecretInt.add a b)) self rhs (new l)

/-- `vec_integers.rs:42-56`, `549-563` `-` on arrays. -/
def arrSub (l : Nat) (self rhs : List (BitVec w)) : L (List (BitVec w)) := do
  require (self.length = rhs.length)
  zipLoop (fun a b => .ok (SecretInt.sub a b)) self rhs (new l)

/-- `vec_integers.rs:566-580` `*` on secret arrays. -/
def arrMulSecret (l : Nat) (self rhs : List (BitVec w)) : L (List (BitVec w)) := do
  require (self.length = rhs.length)
  zipLoop (fun a b => .ok (SecretInt.mul a b)) self rhs (new l)

/-- `vec_integers.rs:113-127` `^` on public arrays. -/
def arrXorPublic (l : Nat) (self rhs : List (BitVec w)) : L (List (BitVec w)) := do
  require (self.length = rhs.length)
  zipLoop (fun a b => .ok (a ^^^ b)) self rhs (new l)

/-- `vec_integers.rs:607-617` `^` on secret arrays. -/
def arrXorSecret (l : Nat) (self rhs : List (BitVec w)) : L (List (BitVec w)) :=
  zipLoop (fun a b => .ok (a ^^^ b)) self rhs (new l)


end Hacspec.Leak.VecInt
