import Verif.Model.Seq

/-!
# Sequence functions with the checks of `usize` arithmetic

`Verif/Model/Seq.lean` computes indices with unbounded naturals.  Here the same functions are written with sums, differences and
products of `usize` as a debug build computes them on a 64-bit machine: a result that does not fit is a panic.
-/

namespace Hacspec.Usize

variable {α : Type} [Inhabited α]

/-- `a + b` on `usize`. -/
def add (a b : Nat) : M Nat := if a + b < 2 ^ 64 then .ok (a + b) else panic
/-- `a - b` on `usize`. -/
def sub (a b : Nat) : M Nat := if b ≤ a then .ok (a - b) else panic
/-- `a * b` on `usize`. -/
def mul (a b : Nat) : M Nat := if a * b < 2 ^ 64 then .ok (a * b) else panic
/-- `a / b` on `usize`. -/
def div (a b : Nat) : M Nat := if b = 0 then panic else .ok (a / b)

/-- `seq.rs:36-40` `new`: `vec![T::default(); l]` panics if the elements, of at least one byte each, take more than `isize::MAX` bytes.
Simplified: elements of one byte. -/
def new (l : Nat) : M (List α) := if l < 2 ^ 63 then .ok (Seq.new l) else panic

/-- `traits.rs:28-41` `update_sub`. -/
def updateSub (self : List α) (startOut : Nat) (v : List α) (startIn len : Nat) : M (List α) := do
  let a ← add startOut len
  require (self.length ≥ a)
  let b ← add startIn len
  require (v.length ≥ b)
  loop len (fun i s => do
    let j ← add startIn i
    let x ← idx v j
    let j ← add startOut i
    setIdx s j x) self

/-- `seq.rs:59-63` `Seq::from_sub`. -/
def fromSub (input : List α) (start len : Nat) : M (List α) := do
  let a ← new len
  updateSub a 0 input start len

/-- `seq.rs:66-68` `Seq::from_sub_range`. -/
def fromSubRange (input : List α) (rStart rEnd : Nat) : M (List α) := do
  let len ← sub rEnd rStart
  fromSub input rStart len

/-- `seq.rs:54-56`, `array.rs:82-84, 336-338` `subr`. -/
def subr (self : List α) (rStart rEnd : Nat) : M (List α) := do
  let len ← sub rEnd rStart
  fromSub self rStart len

/-- `seq.rs:71-76`, `array.rs:87-92, 341-346` `num_chunks`. -/
def numChunks (self : List α) (chunkSize : Nat) : M Nat := do
  let a ← add self.length chunkSize
  let a ← sub a 1
  div a chunkSize

/-- `seq.rs:84-89, 101-106`, `array.rs:95-106, 349-360` the length of a chunk. -/
def getChunkLen (self : List α) (chunkSize chunkNumber : Nat) : M Nat := do
  let idxStart ← mul chunkSize chunkNumber
  let e ← add idxStart chunkSize
  if e > self.length then sub self.length idxStart else .ok chunkSize

/-- `seq.rs:79-92`, `array.rs:109-118, 363-372` `get_chunk`. -/
def getChunk (self : List α) (chunkSize chunkNumber : Nat) : M (Nat × List α) := do
  let idxStart ← mul chunkSize chunkNumber
  let len ← getChunkLen self chunkSize chunkNumber
  let out ← fromSub self idxStart len
  .ok (len, out)

/-- `seq.rs:95-109`, `array.rs:121-131, 375-385` `set_chunk`. -/
def setChunk (self : List α) (chunkSize chunkNumber : Nat) (input : List α) : M (List α) := do
  let idxStart ← mul chunkSize chunkNumber
  let len ← getChunkLen self chunkSize chunkNumber
  require (input.length = len)
  updateSub self idxStart input 0 len

end Hacspec.Usize
