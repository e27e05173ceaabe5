import Verif.Basic

/-!
# Model of `secret-integers/src/lib.rs`

A secret integer `U8..U128`, `I8..I128` is a one-field wrapper around a machine integer
(`lib.rs:170-171`).  The assigning operators `+=`, `&=`, `<<=`, ... are `*self = *self op rhs`
(`lib.rs:105-110, 126-131, 158-163`) and the bitwise operators `&`, `|`, `^`, `!` are those of `BitVec`
(`lib.rs:114-145`).  Wrapper and machine integer are both modelled by `BitVec w` with `w` the width.  The macros are instantiated at
`w ∈ {8,16,32,64,128}` (`lib.rs:448-457`); the model is generic in `w`.
-/

namespace Hacspec

abbrev U8 := BitVec 8
abbrev U16 := BitVec 16
abbrev U32 := BitVec 32
abbrev U64 := BitVec 64
abbrev U128 := BitVec 128

namespace SecretInt

variable {w : Nat}

/-- `lib.rs:175-177` `classify`, `lib.rs:257-262` `From<$repr>`, `traits.rs:127-196` `SecretInteger::classify`:
wraps the value. -/
def classify (x : BitVec w) : BitVec w := x

/-- `lib.rs:181-183` `declassify`: unwraps the value. -/
def declassify (x : BitVec w) : BitVec w := x

/-- `lib.rs:186-188` `zero`. -/
def zero : BitVec w := 0#w

/-- `lib.rs:191-193` `one`. -/
def one : BitVec w := 1#w

/-- `lib.rs:196-198` `ones = !zero()`. -/
def ones : BitVec w := ~~~ zero

/-- `lib.rs:81-90, 264` `Add` (wrapping). -/
def add (x y : BitVec w) : BitVec w := x + y
/-- `lib.rs:81-90, 265` `Sub` (wrapping). -/
def sub (x y : BitVec w) : BitVec w := x - y
/-- `lib.rs:81-90, 266` `Mul` (wrapping). -/
def mul (x y : BitVec w) : BitVec w := x * y

/-- `lib.rs:94-101, 264` unsigned `checked_add`: panics when the sum does not fit. -/
def checkedAddU (x y : BitVec w) : M (BitVec w) :=
  if x.toNat + y.toNat < 2 ^ w then .ok (x + y) else panic
/-- `lib.rs:94-101, 265` unsigned `checked_sub`. -/
def checkedSubU (x y : BitVec w) : M (BitVec w) :=
  if y.toNat ≤ x.toNat then .ok (x - y) else panic
/-- `lib.rs:94-101, 266` unsigned `checked_mul`. -/
def checkedMulU (x y : BitVec w) : M (BitVec w) :=
  if x.toNat * y.toNat < 2 ^ w then .ok (x * y) else panic

/-- `i` is representable as a signed `w`-bit integer (with `i + 2^(w-1)` in `[0, 2^w)`). -/
def fitsS (w : Nat) (i : Int) : Prop := -(2 ^ (w - 1) : Int) ≤ i ∧ i < 2 ^ (w - 1)

instance (w : Nat) (i : Int) : Decidable (fitsS w i) := by unfold fitsS; infer_instance

/-- `lib.rs:94-101, 264` signed `checked_add`. -/
def checkedAddS (x y : BitVec w) : M (BitVec w) :=
  if fitsS w (x.toInt + y.toInt) then .ok (x + y) else panic
/-- `lib.rs:94-101, 265` signed `checked_sub`. -/
def checkedSubS (x y : BitVec w) : M (BitVec w) :=
  if fitsS w (x.toInt - y.toInt) then .ok (x - y) else panic
/-- `lib.rs:94-101, 266` signed `checked_mul`. -/
def checkedMulS (x y : BitVec w) : M (BitVec w) :=
  if fitsS w (x.toInt * y.toInt) then .ok (x * y) else panic

/-- `lib.rs:148-166, 268` `<<` by a `u32`: a plain Rust shift, which panics in a debug build when the
amount is not below the width. -/
def shl (x : BitVec w) (n : Nat) : M (BitVec w) := if n < w then .ok (x <<< n) else panic

/-- `lib.rs:148-166, 269` unsigned `>>` by a `u32`. -/
def shrU (x : BitVec w) (n : Nat) : M (BitVec w) := if n < w then .ok (x >>> n) else panic

/-- `lib.rs:148-166, 269` signed `>>` by a `u32` (arithmetic shift). -/
def shrS (x : BitVec w) (n : Nat) : M (BitVec w) := if n < w then .ok (x.sshiftRight n) else panic

/-- `lib.rs:273-276` `rotate_left` (Rust's native `rotate_left`, amount taken modulo the width). -/
def rotl (x : BitVec w) (n : Nat) : BitVec w := x.rotateLeft n

/-- `lib.rs:279-282` `rotate_right`. -/
def rotr (x : BitVec w) (n : Nat) : BitVec w := x.rotateRight n

/-- `lib.rs:323-330` unsigned `Neg`: `!x + 1`, wrapping. -/
def negU (x : BitVec w) : BitVec w := ~~~ x + 1#w

/-- `lib.rs:401` signed `Neg`: plain `-x`, overflows (panics) on the minimum. -/
def negS (x : BitVec w) : M (BitVec w) := if fitsS w (-x.toInt) then .ok (-x) else panic

/-- `lib.rs:338-347` `comp_eq`.  The shift amount `bits - 1` is below the width, so the shift does not
panic for `0 < w`. -/
def compEq (a b : BitVec w) : BitVec w :=
  let x := a ^^^ b
  let minusX := negU x
  let xOrMinusX := x ||| minusX
  let xnx := xOrMinusX >>> (w - 1)
  sub xnx one

/-- `lib.rs:352-354` `comp_ne`. -/
def compNe (a b : BitVec w) : BitVec w := ~~~ compEq a b

/-- `lib.rs:360-371` `comp_gte`. -/
def compGte (x y : BitVec w) : BitVec w :=
  let xXorY := x ^^^ y
  let xSubY := sub x y
  let xSubYXorY := xSubY ^^^ y
  let q := xXorY ||| xSubYXorY
  let xXorQ := x ^^^ q
  let xXorQ' := xXorQ >>> (w - 1)
  sub xXorQ' one

/-- `lib.rs:376-378` `comp_gt`. -/
def compGt (x y : BitVec w) : BitVec w := compGte x y ^^^ compEq x y

/-- `lib.rs:383-385` `comp_lte`. -/
def compLte (x y : BitVec w) : BitVec w := ~~~ compGt x y

/-- `lib.rs:390-392` `comp_lt`. -/
def compLt (x y : BitVec w) : BitVec w := ~~~ compGte x y

/-- `lib.rs:406-443` the signed `comp_*` functions: `comp_eq` and `comp_gte` are `unimplemented!()` and
all the others call them. -/
def compSigned (_x _y : BitVec w) : M (BitVec w) := panic

/-! ## Casts (`lib.rs:459-646`) -/

/-- `lib.rs:493-514, 537-559, 609-611` `as` casts between unsigned widths: zero extension/truncation. -/
def castU (v : Nat) (x : BitVec w) : BitVec v := x.setWidth v

/-- `lib.rs:613-639` `as` casts between signed widths: sign extension/truncation. -/
def castS (v : Nat) (x : BitVec w) : BitVec v := x.signExtend v

/-- `lib.rs:516-533, 641-646` signed/unsigned casts of the same width keep the bits. -/
def castSign (x : BitVec w) : BitVec w := x

/-! ## Byte serialisation (`lib.rs:200-250`) -/

/-- Rust's `slice.chunks(n)` for `n > 0`: consecutive pieces of `n` elements, the last may be shorter. -/
def chunks {α : Type} (n : Nat) (l : List α) : List (List α) :=
  (List.range ((l.length + n - 1) / n)).map fun i => (l.drop (n * i)).take n

/-- Unsigned integer denoted by bytes, least significant first. -/
def leNat : List U8 → Nat
  | [] => 0
  | b :: bs => b.toNat + 256 * leNat bs

/-- `transmute::<[u8; k], uN>(chunk).to_le()`: the integer whose little-endian bytes are the chunk
(independent of the host byte order). -/
def wordOfLe (w : Nat) (chunk : List U8) : BitVec w := BitVec.ofNat w (leNat chunk)

/-- `transmute::<[u8; k], uN>(chunk).to_be()`: the integer whose big-endian bytes are the chunk. -/
def wordOfBe (w : Nat) (chunk : List U8) : BitVec w := BitVec.ofNat w (leNat chunk.reverse)

/-- `transmute::<uN, [u8; k]>(x.to_le())`: the `w/8` bytes of `x`, least significant first. -/
def leOfWord (x : BitVec w) : List U8 := (List.range (w / 8)).map fun i => x.extractLsb' (8 * i) 8

/-- `transmute::<uN, [u8; k]>(x.to_be())`: the bytes of `x`, most significant first. -/
def beOfWord (x : BitVec w) : List U8 := (leOfWord x).reverse

/-- `lib.rs:200-213` `from_le_bytes` (also `transmute.rs` for the free functions). -/
def fromLeBytes (w : Nat) (bytes : List U8) : M (List (BitVec w)) := do
  require (bytes.length % (w / 8) = 0)
  .ok ((chunks (w / 8) bytes).map (wordOfLe w))

/-- `lib.rs:215-224` `to_le_bytes`. -/
def toLeBytes (ints : List (BitVec w)) : List U8 := ints.flatMap leOfWord

/-- `lib.rs:226-239` `from_be_bytes`. -/
def fromBeBytes (w : Nat) (bytes : List U8) : M (List (BitVec w)) := do
  require (bytes.length % (w / 8) = 0)
  .ok ((chunks (w / 8) bytes).map (wordOfBe w))

/-- `lib.rs:241-250` `to_be_bytes`. -/
def toBeBytes (ints : List (BitVec w)) : List U8 := ints.flatMap beOfWord

end SecretInt
end Hacspec
