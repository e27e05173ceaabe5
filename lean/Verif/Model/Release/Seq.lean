import Verif.Model.VecInt
import Verif.Model.Hex

/-!
# Sequences, arrays and integers in a release build

The files `Verif/Model/*.lean` describe a debug build.  In a release build (`cargo build --release`, no override of
`debug-assertions` or `overflow-checks` in any `Cargo.toml` of the repository)

* `debug_assert!` and `debug_assert_eq!` are compiled to nothing, while `assert!`, index checks, division by zero and
  `unimplemented!` still panic;
* `+`, `-`, `*` and unary `-` on machine integers, `usize` included, wrap;
* the amount of `<<` and `>>` is taken modulo the width.

This file repeats `Verif/Model/Seq.lean`, `VecInt.lean` and the operators of `SecretInt.lean` and `MachineInt.lean` under
these rules.  Functions without such operations are the same in both builds and are not repeated; in particular
everything in `abstract-integers` (which uses `assert!` and `num` integers only).
-/

namespace Hacspec.Release

open SecretInt

/-! ## Machine arithmetic -/

/-- A `usize` value after wrapping. -/
def usize (n : Nat) : Nat := n % 2 ^ 64

/-- Wrapping `usize` difference of two `usize` values. -/
def usizeSub (a b : Nat) : Nat := if b ≤ a then a - b else 2 ^ 64 - (b - a)

section
variable {w : Nat}

/-- `lib.rs:148-166, 268` `<<`: the amount is taken modulo the width. -/
def shl (x : BitVec w) (n : Nat) : M (BitVec w) := .ok (x <<< (n % w))
/-- `lib.rs:148-166, 269` unsigned `>>`. -/
def shrU (x : BitVec w) (n : Nat) : M (BitVec w) := .ok (x >>> (n % w))
/-- `lib.rs:148-166, 269` signed `>>`. -/
def shrS (x : BitVec w) (n : Nat) : M (BitVec w) := .ok (x.sshiftRight (n % w))
/-- `lib.rs:401` signed `Neg`. -/
def negS (x : BitVec w) : M (BitVec w) := .ok (-x)

/-- `x + y` on `uN` and `iN`. -/
def addP (x y : BitVec w) : M (BitVec w) := .ok (x + y)
/-- `x - y` on `uN` and `iN`. -/
def subP (x y : BitVec w) : M (BitVec w) := .ok (x - y)
/-- `x * y` on `uN` and `iN`. -/
def mulP (x y : BitVec w) : M (BitVec w) := .ok (x * y)

/-- `traits.rs:115-119` `Integer::rotate_right` of secret unsigned integers; the `assert!` (L117) stays. -/
def rotateRight (x : BitVec w) (n : Nat) : M (BitVec w) := do
  require (n < w)
  let a ← shrU x n
  let b ← shl x (MachineInt.rotCompl w n)
  .ok (a ||| b)

/-- `traits.rs:267-269` `get_byte`; `i * 8` is a `u32` product. -/
def getByte (x : BitVec w) (i : Nat) : M (BitVec w) := do
  let a ← shrU x (i * 8 % 2 ^ 32)
  let m ← shl (1#w) 8
  .ok (a &&& (m - 1#w))

end

namespace Seq

open Hacspec.Seq (new copyStep)

variable {α : Type} [Inhabited α]

/-- `traits.rs:28-41` `update_sub` literally: without the assertions of L35-36, with index sums that wrap. -/
def updateSubUsize (self : List α) (startOut : Nat) (v : List α) (startIn len : Nat) : M (List α) :=
  loop len (fun i s => do
    let x ← idx v (usize (startIn + i))
    setIdx s (usize (startOut + i)) x) self

/-- `traits.rs:28-41` `update_sub`.  Simplified: the sums do not wrap.  The indices are tried in increasing order, so
that the length is reached before the first sum that wraps; `updateSubUsize_eq` (`Verif/Lemmas/Release/Seq.lean`) proves
the two versions equal on vectors with fewer than `2^64` elements. -/
def updateSub (self : List α) (startOut : Nat) (v : List α) (startIn len : Nat) : M (List α) :=
  loop len (fun i s => do
    let x ← idx v (startIn + i)
    setIdx s (startOut + i) x) self

/-- `traits.rs:56-59` `update`. -/
def update (self : List α) (start : Nat) (v : List α) : M (List α) :=
  updateSub self start v 0 v.length

/-- `traits.rs:62-65` `update_start`. -/
def updateStart (self : List α) (v : List α) : M (List α) := updateSub self 0 v 0 v.length

/-- `seq.rs:59-63` `Seq::from_sub`.  (Allocating more than `isize::MAX` bytes panics; then some index is out of
bounds in the model.) -/
def fromSub (input : List α) (start len : Nat) : M (List α) := updateSub (new len) 0 input start len

/-- `seq.rs:66-68` `Seq::from_sub_range`; `r.end - r.start` wraps. -/
def fromSubRange (input : List α) (rStart rEnd : Nat) : M (List α) :=
  fromSub input rStart (usizeSub rEnd rStart)

/-- `seq.rs:49-51`, `array.rs:77-79, 331-333` `sub`. -/
def sub (self : List α) (start len : Nat) : M (List α) := fromSub self start len

/-- `seq.rs:54-56`, `array.rs:82-84, 336-338` `subr`. -/
def subr (self : List α) (rStart rEnd : Nat) : M (List α) := sub self rStart (usizeSub rEnd rStart)

/-- `seq.rs:71-76`, `array.rs:87-92, 341-346` `num_chunks`: `(len + chunk_size - 1) / chunk_size`. -/
def numChunks (self : List α) (chunkSize : Nat) : M Nat := do
  require (chunkSize ≠ 0)
  .ok (usizeSub (usize (self.length + chunkSize)) 1 / chunkSize)

/-- `seq.rs:84-89, 101-106`, `array.rs:95-106, 349-360` the length of a chunk. -/
def getChunkLen (self : List α) (chunkSize chunkNumber : Nat) : Nat :=
  let idxStart := usize (chunkSize * chunkNumber)
  if usize (idxStart + chunkSize) > self.length then usizeSub self.length idxStart else chunkSize

/-- `seq.rs:79-92`, `array.rs:109-118, 363-372` `get_chunk`. -/
def getChunk (self : List α) (chunkSize chunkNumber : Nat) : M (Nat × List α) := do
  let idxStart := usize (chunkSize * chunkNumber)
  let len := getChunkLen self chunkSize chunkNumber
  let out ← sub self idxStart len
  .ok (len, out)

/-- `seq.rs:95-109`, `array.rs:121-131, 375-385` `set_chunk`: without the assertion on the length of the input. -/
def setChunk (self : List α) (chunkSize chunkNumber : Nat) (input : List α) : M (List α) :=
  let idxStart := usize (chunkSize * chunkNumber)
  let len := getChunkLen self chunkSize chunkNumber
  updateSub self idxStart input 0 len

/-- `array.rs:47-54, 301-308` array `from_slice`. -/
def arrFromSlice (l : Nat) (v : List α) : M (List α) := loop v.length (copyStep v) (new l)

/-- `array.rs:64-69, 318-323` array `from_sub`. -/
def arrFromSub (l : Nat) (input : List α) (start len : Nat) : M (List α) :=
  updateSub (new l) 0 input start len

/-- `array.rs:72-74, 326-328` array `from_sub_range`. -/
def arrFromSubRange (l : Nat) (input : List α) (rStart rEnd : Nat) : M (List α) :=
  arrFromSub l input rStart (usizeSub rEnd rStart)

/-- `array.rs:219-226, 473-480` array `from_vec`. -/
def arrFromVec (l : Nat) (x : List α) : M (List α) := loop x.length (copyStep x) (new l)

/-- `array.rs:231-238, 485-492` array `from_seq`. -/
def arrFromSeq (l : Nat) (x : List α) : M (List α) := loop x.length (copyStep x) (new l)

/-- `array.rs:578-605` `from_public_slice`, `from_public_array` of secret arrays. -/
def arrFromPublicSlice {w : Nat} (l : Nat) (v : List (BitVec w)) : M (List (BitVec w)) :=
  arrFromVec l (v.map classify)

/-- `array.rs:878-901` `both_arrays!`: `from_public`, `from_secret_declassify`. -/
def arrFromOther {w : Nat} (l : Nat) (v : List (BitVec w)) : M (List (BitVec w)) :=
  arrFromVec l (v.map classify)

/-- `array.rs:650-707` `to_be_U32s`, ...: without the assertion on the length of the block. -/
def arrToWords {w : Nat} (l : Nat) (de : List U8 → M (List (BitVec w))) (self : List U8) :
    M (List (BitVec w)) :=
  let k := w / 8
  let cs := SecretInt.chunks k self
  loop cs.length (fun i out => do
    let block ← idx cs i
    let s ← arrFromSlice k block
    let ws ← de s
    let x ← idx ws 0
    setIdx out i x) (new (l / k))

/-- `array.rs:650-657` etc. big-endian word views of secret byte arrays. -/
def arrToBeWords (w l : Nat) (self : List U8) : M (List (BitVec w)) := arrToWords l (fromBeBytes w) self

/-- `array.rs:660-667` etc. little-endian word views of secret byte arrays. -/
def arrToLeWords (w l : Nat) (self : List U8) : M (List (BitVec w)) := arrToWords l (fromLeBytes w) self

/-- `array.rs:737-785` `to_be_u32s` ... of public byte arrays; `to_array` (`util.rs:20-28`) panics when the lengths
differ, in both builds. -/
def arrToPubWords {w : Nat} (l : Nat) (de : List U8 → BitVec w) (self : List U8) : M (List (BitVec w)) :=
  Hacspec.Seq.arrToPubWords l de self

/-- `transmute.rs:8-10` ... `UN_to_le_bytes`. -/
def wordToLeBytes {w : Nat} (x : BitVec w) : M (List U8) := arrFromVec (w / 8) (toLeBytes [x])
/-- `transmute.rs:13-15` ... `UN_to_be_bytes`. -/
def wordToBeBytes {w : Nat} (x : BitVec w) : M (List U8) := arrFromVec (w / 8) (toBeBytes [x])

/-- `array.rs:248-267` `hex_string_to_vec` and `from_hex` of byte arrays (the assertion of L249 is about `size_of::<u8>`,
which is 1). -/
def arrFromHex (l : Nat) (s : List U8) : M (List U8) := do
  let v ← Hex.hexStringToBytes s
  loop l (copyStep v) (new l)

end Seq

namespace VecInt

open Hacspec.VecInt (zipLoop)
open Hacspec.Seq (new)

variable {w : Nat}

/-- `vec_integers.rs:25-39, 532-546` `+` on arrays of length `l`. -/
def arrAdd (l : Nat) (self rhs : List (BitVec w)) : M (List (BitVec w)) :=
  zipLoop (fun a b => .ok (SecretInt.add a b)) self rhs (new l)

/-- `vec_integers.rs:42-56`, `549-563` `-` on arrays. -/
def arrSub (l : Nat) (self rhs : List (BitVec w)) : M (List (BitVec w)) :=
  zipLoop (fun a b => .ok (SecretInt.sub a b)) self rhs (new l)

/-- `vec_integers.rs:566-580` `*` on secret arrays. -/
def arrMulSecret (l : Nat) (self rhs : List (BitVec w)) : M (List (BitVec w)) :=
  zipLoop (fun a b => .ok (SecretInt.mul a b)) self rhs (new l)

/-- `vec_integers.rs:72-86` `/` on public unsigned arrays. -/
def arrDiv (l : Nat) (self rhs : List (BitVec w)) : M (List (BitVec w)) :=
  zipLoop MachineInt.divU self rhs (new l)

/-- `vec_integers.rs:113-127` `^` on public arrays. -/
def arrXorPublic (l : Nat) (self rhs : List (BitVec w)) : M (List (BitVec w)) :=
  zipLoop (fun a b => .ok (a ^^^ b)) self rhs (new l)

end VecInt
end Hacspec.Release
