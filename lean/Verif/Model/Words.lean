import Verif.Model.NatMod
import Verif.Model.VecInt

/-!
# The remaining trait implementations: `hacspec/src/traits.rs`, `transmute.rs`, `array.rs`, `seq.rs`,
`vec_integers.rs`, `math_integers.rs`

Conversions between integers and byte sequences, indexing by other integer types, the order on public arrays
and the `wrap_*` methods of the `NumericBase` trait.
-/

namespace Hacspec.Words

open SecretInt Hacspec.Seq AbstractInt

/-! ## `UnsignedSecretInteger` and `UnsignedPublicInteger` -/

/-- `traits.rs:274-284, 382-402` (`U8`; `u8`, with `from_le_bytes` and `from_be_bytes`) `to_le_bytes`, `to_be_bytes`. -/
def u8ToBytes (x : U8) : M (List U8) := setIdx (new 1) 0 x

/-- `traits.rs:286-294` (`U8`), `394-402` (`u8`) `from_le_bytes`, `from_be_bytes`. -/
def u8FromBytes (x : List U8) : M U8 := do
  require (x.length = 1)
  idx x 0

/-- `traits.rs:299-301, 318-320, 337-339, 356-358` `to_le_bytes` of `U16`, ..., `U128`, through `transmute.rs:8-10, 30-32, 52-54, 74-76`. -/
def toLe {w : Nat} (x : BitVec w) : M (List U8) := do
  let s ← wordToLeBytes x
  fromSeq s

/-- `traits.rs:303-305, 322-324, 341-343, 360-362` `to_be_bytes`, through `transmute.rs:13-15, 35-37, 57-59, 79-81`. -/
def toBe {w : Nat} (x : BitVec w) : M (List U8) := do
  let s ← wordToBeBytes x
  fromSeq s

/-- `traits.rs:307-309, 326-328, 345-347, 364-366` `from_le_bytes`, through `transmute.rs:23-25, 45-47, 67-69, 89-91`. -/
def fromLe (w : Nat) (x : List U8) : M (BitVec w) := do
  let s ← arrFromSeq (w / 8) x
  wordFromLeBytes w s

/-- `traits.rs:311-313, 330-332, 349-351, 368-370` `from_be_bytes`, through `transmute.rs:18-20, 40-42, 62-64, 84-86`. -/
def fromBe (w : Nat) (x : List U8) : M (BitVec w) := do
  let s ← arrFromSeq (w / 8) x
  wordFromBeBytes w s

/-- `transmute.rs:96-98, 118-120, 140-142, 162-164` `uN_to_le_bytes` of public integers; Rust's own `to_le_bytes`. -/
def pubWordToLe {w : Nat} (x : BitVec w) : List U8 := leOfWord x
/-- `transmute.rs:101-103, 123-125, 145-147, 167-169` `uN_to_be_bytes`. -/
def pubWordToBe {w : Nat} (x : BitVec w) : List U8 := beOfWord x
/-- `transmute.rs:106-108, 128-130, 150-152, 172-174` `uN_from_be_bytes`. -/
def pubWordFromBe (w : Nat) (s : List U8) : BitVec w := wordOfBe w s
/-- `transmute.rs:111-113, 133-135, 155-157, 177-179` `uN_from_le_bytes`. -/
def pubWordFromLe (w : Nat) (s : List U8) : BitVec w := wordOfLe w s

/-- `traits.rs:407-409, 426-428, 445-447, 464-466` `to_le_bytes` of `u16`, ..., `u128`. -/
def pubToLe {w : Nat} (x : BitVec w) : M (List U8) := fromSeq (pubWordToLe x)
/-- `traits.rs:411-413, 430-432, 449-451, 468-470` `to_be_bytes`. -/
def pubToBe {w : Nat} (x : BitVec w) : M (List U8) := fromSeq (pubWordToBe x)
/-- `traits.rs:415-417, 434-436, 453-455, 472-474` `from_le_bytes`. -/
def pubFromLe (w : Nat) (x : List U8) : M (BitVec w) := do
  let s ← arrFromSeq (w / 8) x
  .ok (pubWordFromLe w s)
/-- `traits.rs:419-421, 438-440, 457-459, 476-478` `from_be_bytes`. -/
def pubFromBe (w : Nat) (x : List U8) : M (BitVec w) := do
  let s ← arrFromSeq (w / 8) x
  .ok (pubWordFromBe w s)

/-! ## Indexing -/

/-- Rust's `i as usize` for a signed 32-bit index on a 64-bit machine: sign extension. -/
def usizeOfI32 (i : BitVec 32) : Nat := (i.signExtend 64).toNat

/-- `array.rs:200-202, 454-456`, `seq.rs:162-164` `[i]` with an `i32`. -/
def idxI32 {α : Type} (l : List α) (i : BitVec 32) : M α := idx l (usizeOfI32 i)

/-- `array.rs:206-208, 460-462`, `seq.rs:169-171` `[i] = x` with an `i32`. -/
def setIdxI32 {α : Type} (l : List α) (i : BitVec 32) (x : α) : M (List α) := setIdx l (usizeOfI32 i) x

/-- `array.rs:174-176, 187-189, 428-430, 441-443`, `seq.rs:132-134, 147-149` `[i]` with a `u8` or a `u32`:
`i as usize` zero-extends. -/
def idxU {α : Type} {w : Nat} (l : List α) (i : BitVec w) : M α := idx l (i.setWidth 64).toNat

/-- `array.rs:180-182, 193-195, 434-436, 447-449`, `seq.rs:139-141, 154-156` `[i] = x` with a `u8` or a `u32`. -/
def setIdxU {α : Type} {w : Nat} (l : List α) (i : BitVec w) (x : α) : M (List α) := setIdx l (i.setWidth 64).toNat x

/-- `seq.rs:192-194` `[a..b]`: panics when `a > b` or `b` is beyond the end.  (`array.rs:213-215, 467-469` `[..]` is the
whole array; `[i]` and `[i] = x` with a `usize`, `array.rs:160-168, 414-422`, `seq.rs:177-186`, are `idx` and `setIdx`.) -/
def idxRange {α : Type} (l : List α) (a b : Nat) : M (List α) := do
  require (a ≤ b)
  require (b ≤ l.length)
  .ok ((l.drop a).take (b - a))

/-! ## Order on public arrays -/

/-- Rust's `[T]::cmp` (`core::slice::cmp`): the first unequal pair decides, then the lengths. -/
def cmpSlice {α : Type} (c : α → α → Ordering) : List α → List α → Ordering
  | [], [] => .eq
  | [], _ :: _ => .lt
  | _ :: _, [] => .gt
  | a :: x, b :: y => match c a b with
    | .eq => cmpSlice c x y
    | o => o

/-- `vec_integers.rs:12-14, 18-20` `partial_cmp`, `cmp` of unsigned public arrays. -/
def arrCmpU {w : Nat} (x y : List (BitVec w)) : Ordering := cmpSlice (fun a b => compare a.toNat b.toNat) x y

/-- `vec_integers.rs:291-293, 297-299` `partial_cmp`, `cmp` of signed public arrays. -/
def arrCmpS {w : Nat} (x y : List (BitVec w)) : Ordering := cmpSlice (fun a b => compare a.toInt b.toInt) x y

/-- `array.rs:631-633` `==` of public arrays. -/
def arrEq {w : Nat} (x y : List (BitVec w)) : Bool := decide (x = y)

/-- `vec_integers.rs:777-779` `partial_cmp` of signed secret arrays, whose `cmp` is `unimplemented!()`. -/
def arrCmpSecretS {w : Nat} (_x _y : List (BitVec w)) : M Ordering := panic

/-! ## `wrap_add`, `wrap_sub`, `wrap_mul` of the `NumericBase` trait -/

/-- `math_integers.rs:42-44, 176-178, 310-312, 444-446` `wrap_add` of bounded integers: `self + rhs`. -/
def wrapAdd (bits : Nat) (signed : Bool) (x y : Canvas) : M Canvas := AbstractInt.add bits signed x y
/-- `math_integers.rs:46-48, 180-182, 314-316, 448-450` `wrap_sub`: `self - rhs`. -/
def wrapSub (bits : Nat) (signed : Bool) (x y : Canvas) : M Canvas := AbstractInt.sub bits signed x y
/-- `math_integers.rs:50-52, 184-186, 318-320, 452-454` `wrap_mul`: `self * rhs`. -/
def wrapMul (bits : Nat) (signed : Bool) (x y : Canvas) : M Canvas := AbstractInt.mul bits signed x y

/-- `math_integers.rs:578-580, 748-750` `wrap_add` of modular integers. -/
def modWrapAdd (T : NatMod.NatTy) (x y : Canvas) : M Canvas := NatMod.add T x y
/-- `math_integers.rs:582-584, 752-754` `wrap_sub`. -/
def modWrapSub (T : NatMod.NatTy) (x y : Canvas) : M Canvas := NatMod.sub T x y
/-- `math_integers.rs:586-588, 756-758` `wrap_mul`. -/
def modWrapMul (T : NatMod.NatTy) (x y : Canvas) : M Canvas := NatMod.mul T x y

/-- `vec_integers.rs:189-191, 679-681` `wrap_add` of arrays of length `l`. -/
def arrWrapAdd {w : Nat} (l : Nat) (x y : List (BitVec w)) : M (List (BitVec w)) := VecInt.arrAdd l x y
/-- `vec_integers.rs:194-196, 683-685` `wrap_sub`. -/
def arrWrapSub {w : Nat} (l : Nat) (x y : List (BitVec w)) : M (List (BitVec w)) := VecInt.arrSub l x y
/-- `vec_integers.rs:199-201` `wrap_mul` of public arrays. -/
def arrWrapMulPublic {w : Nat} (x y : List (BitVec w)) : M (List (BitVec w)) := VecInt.arrMulPublic x y
/-- `vec_integers.rs:687-689` `wrap_mul` of secret arrays. -/
def arrWrapMulSecret {w : Nat} (l : Nat) (x y : List (BitVec w)) : M (List (BitVec w)) := VecInt.arrMulSecret l x y

/-- `vec_integers.rs:432-434, 437-439, 442-444, 918-920, 923-925, 928-930` `wrap_*` of signed arrays: the operators
they call are `unimplemented!()`. -/
def arrWrapSigned {w : Nat} (_x _y : List (BitVec w)) : M (List (BitVec w)) := panic

/-- `vec_integers.rs:1045-1053` `wrap_add`, `wrap_sub`, `wrap_mul` of `PublicSeq`. -/
def seqWrapAdd {w : Nat} (x y : List (BitVec w)) : M (List (BitVec w)) := VecInt.pubSeqAdd x y
/-- `vec_integers.rs:1048-1050`. -/
def seqWrapSub {w : Nat} (x y : List (BitVec w)) : M (List (BitVec w)) := VecInt.pubSeqSub x y
/-- `vec_integers.rs:1051-1053`. -/
def seqWrapMul {w : Nat} (x y : List (BitVec w)) : M (List (BitVec w)) := VecInt.pubSeqMul x y

/-! ## Small conversions -/

/-- `seq.rs:312-319` `Seq::<U8>::from_public_slice`. -/
def seqFromPublicSlice (v : List U8) : List U8 := fromVec (v.map classify)

/-- `secret-integers/src/lib.rs:252-254` `max_value` of unsigned types. -/
def maxValueU (w : Nat) : BitVec w := BitVec.allOnes w

/-- `secret-integers/src/lib.rs:252-254` `max_value` of signed types. -/
def maxValueS (w : Nat) : BitVec w := BitVec.allOnes w >>> 1

/-- `math_integers.rs:707-709` `from_secret_literal`. -/
def fromSecretLiteral (T : NatMod.NatTy) (x : U128) : M Canvas := NatMod.fromLiteral T (declassify x)

end Hacspec.Words
