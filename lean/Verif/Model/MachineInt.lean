import Verif.Model.SecretInt

/-!
# Model of the machine-integer layer of `hacspec`

`hacspec/src/machine_integers.rs`, the `Integer` part of `hacspec/src/traits.rs` and
`hacspec/src/math_util.rs`.
-/

namespace Hacspec.MachineInt

open SecretInt

variable {w : Nat}

/-! ## Plain Rust operators on public integers (debug build: overflow panics) -/

/-- `x + y` on `uN`. -/
def addU (x y : BitVec w) : M (BitVec w) := checkedAddU x y
/-- `x - y` on `uN`. -/
def subU (x y : BitVec w) : M (BitVec w) := checkedSubU x y
/-- `x * y` on `uN`. -/
def mulU (x y : BitVec w) : M (BitVec w) := checkedMulU x y
/-- `x / y` on `uN`. -/
def divU (x y : BitVec w) : M (BitVec w) := if y = 0#w then panic else .ok (x / y)
/-- `x % y` on `uN`. -/
def remU (x y : BitVec w) : M (BitVec w) := if y = 0#w then panic else .ok (x % y)
/-- `x + y` on `iN`. -/
def addS (x y : BitVec w) : M (BitVec w) := checkedAddS x y
/-- `x - y` on `iN`. -/
def subS (x y : BitVec w) : M (BitVec w) := checkedSubS x y
/-- `x * y` on `iN`. -/
def mulS (x y : BitVec w) : M (BitVec w) := checkedMulS x y
/-- `x / y` on `iN`: truncating; panics on a zero divisor and on `MIN / -1`. -/
def divS (x y : BitVec w) : M (BitVec w) :=
  if y = 0#w then panic
  else if fitsS w (x.toInt.tdiv y.toInt) then .ok (BitVec.ofInt w (x.toInt.tdiv y.toInt)) else panic

/-- The operations of the trait `Integer` that differ between the four families of machine integers
(public/secret, unsigned/signed); `T: Integer` in generic Rust code becomes a parameter of this type. -/
structure IntOps (w : Nat) where
  /-- `+` -/
  add : BitVec w → BitVec w → M (BitVec w)
  /-- `-` -/
  sub : BitVec w → BitVec w → M (BitVec w)
  /-- `*` -/
  mul : BitVec w → BitVec w → M (BitVec w)
  /-- `NumericBase::div` -/
  div : BitVec w → BitVec w → M (BitVec w)
  /-- `NumericBase::less_than` -/
  lt : BitVec w → BitVec w → Bool
  /-- `>>` -/
  shr : BitVec w → Nat → M (BitVec w)
  /-- `NumericBase::greater_than_or_qual_bm` -/
  gteBm : BitVec w → BitVec w → M (BitVec w)

/-- `<uN>::max_value()` -/
def maxU : BitVec w := BitVec.allOnes w
/-- `<iN>::max_value()` -/
def maxS : BitVec w := BitVec.intMax w

/-- A public comparison mask (`machine_integers.rs:174-221`): `max_value()` or `default()`. -/
def pubMask (mx : BitVec w) (b : Bool) : BitVec w := if b then mx else 0#w

/-- `uN` (`machine_integers.rs:85-223, 225-229`; `div` L136, `less_than` L165, masks L202-208). -/
def pubU : IntOps w where
  add := addU
  sub := subU
  mul := mulU
  div := divU
  lt x y := decide (x.toNat < y.toNat)
  shr := shrU
  gteBm x y := .ok (pubMask maxU (decide (y.toNat ≤ x.toNat)))

/-- `iN` (`machine_integers.rs:85-223, 231-235`). -/
def pubS : IntOps w where
  add := addS
  sub := subS
  mul := mulS
  div := divS
  lt x y := decide (x.toInt < y.toInt)
  shr := shrS
  gteBm x y := .ok (pubMask maxS (decide (y.toInt ≤ x.toInt)))

/-- `UN` (`machine_integers.rs:329-467`, L469-473; `div` L391 divides the declassified values). -/
def secU : IntOps w where
  add x y := .ok (SecretInt.add x y)
  sub x y := .ok (SecretInt.sub x y)
  mul x y := .ok (SecretInt.mul x y)
  div := divU
  lt x y := decide (x.toNat < y.toNat)
  shr := shrU
  gteBm x y := .ok (compGte x y)

/-- `IN` (`machine_integers.rs:329-467`, L476-480); the masks are unimplemented in `secret-integers`. -/
def secS : IntOps w where
  add x y := .ok (SecretInt.add x y)
  sub x y := .ok (SecretInt.sub x y)
  mul x y := .ok (SecretInt.mul x y)
  div := divS
  lt x y := decide (x.toInt < y.toInt)
  shr := shrS
  gteBm := compSigned

/-! ## Public comparison masks (`machine_integers.rs:172-221`) -/

/-- The six relations. -/
inductive Rel where
  | ne | eq | gt | gte | lt | lte
  deriving DecidableEq

/-- Truth of a relation between integers. -/
def Rel.holds (r : Rel) (x y : Int) : Bool :=
  match r with
  | .ne => x ≠ y
  | .eq => x = y
  | .gt => x > y
  | .gte => x ≥ y
  | .lt => x < y
  | .lte => x ≤ y

/-- `machine_integers.rs:174-221` on `uN`. -/
def bmPubU (r : Rel) (x y : BitVec w) : BitVec w := pubMask maxU (r.holds x.toNat y.toNat)
/-- `machine_integers.rs:174-221` on `iN`. -/
def bmPubS (r : Rel) (x y : BitVec w) : BitVec w := pubMask maxS (r.holds x.toInt y.toInt)
/-- `machine_integers.rs:442-464` on `UN`. -/
def bmSecU (r : Rel) (x y : BitVec w) : BitVec w :=
  match r with
  | .ne => compNe x y
  | .eq => compEq x y
  | .gt => compGt x y
  | .gte => compGte x y
  | .lt => compLt x y
  | .lte => compLte x y

/-! ## Bit manipulation (`traits.rs:78-121`) -/

/-- `machine_integers.rs:97-99, 341-343` `from_literal`: `val as T`. -/
def fromLiteral (w : Nat) (val : BitVec 128) : BitVec w := val.setWidth w

/-- `traits.rs:84-86` `get_bit`. -/
def getBit (O : IntOps w) (x : BitVec w) (i : Nat) : M (BitVec w) := do
  let s ← O.shr x i
  .ok (s &&& 1#w)

/-- `traits.rs:92-97` `set_bit`; `1 << i` is a `u128` shift. -/
def setBit (x b : BitVec w) (i : Nat) : M (BitVec w) := do
  require (b = 1#w ∨ b = 0#w)
  let one128 ← shl (1#128) i
  let tmp1 := fromLiteral w (~~~ one128)
  let tmp2 ← shl b i
  .ok ((x &&& tmp1) ||| tmp2)

/-- `traits.rs:102-105` `set`. -/
def set (O : IntOps w) (x : BitVec w) (pos : Nat) (y : BitVec w) (yi : Nat) : M (BitVec w) := do
  let b ← getBit O y yi
  setBit x b pos

/-- `(-(n as i32) as u32) & (NUM_BITS - 1)` (`traits.rs:111`, `118`) for `n < 2^31`. -/
def rotCompl (w n : Nat) : Nat := ((2 ^ 32 - n) % 2 ^ 32) &&& (w - 1)

/-- `traits.rs:108-112` `Integer::rotate_left`. -/
def rotateLeft (O : IntOps w) (x : BitVec w) (n : Nat) : M (BitVec w) := do
  require (n < w)
  let a ← shl x n
  let b ← O.shr x (rotCompl w n)
  .ok (a ||| b)

/-- `traits.rs:115-119` `Integer::rotate_right`. -/
def rotateRight (O : IntOps w) (x : BitVec w) (n : Nat) : M (BitVec w) := do
  require (n < w)
  let a ← O.shr x n
  let b ← shl x (rotCompl w n)
  .ok (a ||| b)

/-- `traits.rs:267-269` `get_byte` (secret unsigned types). `i * 8` is a `u32` product. -/
def getByte (x : BitVec w) (i : Nat) : M (BitVec w) := do
  require (i * 8 < 2 ^ 32)
  let a ← shrU x (i * 8)
  let m ← shl (1#w) 8
  .ok (a &&& (m - 1#w))

/-! ## Modular arithmetic (`machine_integers.rs:13-83`) -/

/-- `machine_integers.rs:19-27` unsigned `sub_mod`.  The loop state is one word, so `2^w + 1` steps of
fuel are exact. -/
def subModU (x rhs n : BitVec w) : M (BitVec w) := do
  let tmp ← whileM (2 ^ w + 1) (fun t => decide (t.toNat < rhs.toNat)) (fun t => addU t n) x
  let d ← subU tmp rhs
  remU d n

/-- `machine_integers.rs:30-32` (and secret L255-260) unsigned `add_mod`. -/
def addModU (x rhs n : BitVec w) : M (BitVec w) := do
  let s ← addU x rhs
  remU s n

/-- `machine_integers.rs:35-37` (and secret L263-268) unsigned `mul_mod`. -/
def mulModU (x rhs n : BitVec w) : M (BitVec w) := do
  let s ← mulU x rhs
  remU s n

/-- `machine_integers.rs:45-47` unsigned `modulo`. -/
def moduloU (x n : BitVec w) : M (BitVec w) := remU x n

/-- An `i128` computation on mathematical integers: panics when the result does not fit. -/
def i128 (z : Int) : M Int := if fitsS 128 z then .ok z else panic

/-- `math_util.rs:11-17` `signed_mod` on `i128` values (given as integers in range). -/
def signedMod (x n : Int) : M Int := do
  require (n ≠ 0)
  let q ← i128 (x.tdiv n)          -- `MIN % -1` overflows
  let _ := q
  let ret := x.tmod n
  whileM (2 ^ 128 + 1) (fun r => decide (r < 0)) (fun r => i128 (r + n)) ret

/-- `machine_integers.rs:58-60` signed `sub_mod`. -/
def subModS (x rhs n : BitVec w) : M (BitVec w) := do
  let d ← i128 (x.toInt - rhs.toInt)
  let r ← signedMod d n.toInt
  .ok (BitVec.ofInt w r)

/-- `machine_integers.rs:63-65` signed `add_mod`. -/
def addModS (x rhs n : BitVec w) : M (BitVec w) := do
  let d ← i128 (x.toInt + rhs.toInt)
  let r ← signedMod d n.toInt
  .ok (BitVec.ofInt w r)

/-- `machine_integers.rs:68-70` signed `mul_mod`. -/
def mulModS (x rhs n : BitVec w) : M (BitVec w) := do
  let d ← i128 (x.toInt * rhs.toInt)
  let r ← signedMod d n.toInt
  .ok (BitVec.ofInt w r)

/-- `machine_integers.rs:78-80` signed `modulo`. -/
def moduloS (x n : BitVec w) : M (BitVec w) := do
  let r ← signedMod x.toInt n.toInt
  .ok (BitVec.ofInt w r)

/-- `machine_integers.rs:372-382` secret `pow`. -/
def secPow (x : BitVec w) (exp : Nat) : M (BitVec w) :=
  if exp = 0 then .ok 1#w
  else loop (exp - 1) (fun _ s => .ok (SecretInt.mul s x)) x

/-! ## `math_util.rs` -/

/-- Loop state `(t, r, new_t, new_r)` of `extended_euclid_invert`. -/
structure EState (w : Nat) where
  t : BitVec w
  r : BitVec w
  newT : BitVec w
  newR : BitVec w

/-- `math_util.rs:37-40, 47-50`: `while tmp < prod { tmp = tmp + n }` then `tmp - prod`. -/
def subAdd (O : IntOps w) (n start prod : BitVec w) : M (BitVec w) := do
  let tmp ← whileM (2 ^ w + 1) (fun t => O.lt t prod) (fun t => O.add t n) start
  O.sub tmp prod

/-- `math_util.rs:32-54` one iteration of the main loop. -/
def euclidStep (O : IntOps w) (n : BitVec w) (s : EState w) : M (EState w) := do
  let q ← O.div s.r s.newR
  let prodR ← O.mul q s.newR
  let newR ← subAdd O n s.r prodR
  let prodT ← O.mul q s.newT
  let newT ← subAdd O n s.t prodT
  .ok { t := s.newT, r := s.newR, newT := newT, newR := newR }

/-- `math_util.rs:25-68` `extended_euclid_invert(x, n, false)` (all callers pass `signed = false`).
The loop state has `2^(4w)` values. -/
def euclidInvert (O : IntOps w) (x n : BitVec w) : M (BitVec w) := do
  let s ← whileM (2 ^ (4 * w) + 1) (fun s => decide (s.newR ≠ 0#w)) (euclidStep O n)
    { t := 0#w, r := n, newT := 1#w, newR := x }
  if O.lt 1#w s.r = true ∧ x ≠ 0#w then panic
  else if O.lt s.t 0#w then O.add s.t n
  else .ok s.t

/-- `math_util.rs:83-86` `cswap`. -/
def cswap (x y c : BitVec w) : BitVec w × BitVec w :=
  let mask := c &&& (x ^^^ y)
  (x ^^^ mask, y ^^^ mask)

/-- `math_util.rs:74-76` `cswap_bit`. -/
def cswapBit (x y c : BitVec w) : BitVec w × BitVec w := cswap x y (0#w - c)

/-- `math_util.rs:92-96` `cset_bit`. -/
def csetBit (x b : BitVec w) (i : Nat) (c : BitVec w) : M (BitVec w) := do
  let st ← setBit x b i
  .ok (cswap x st c).1

/-- `math_util.rs:103-107` `cadd`. -/
def cadd (x y c : BitVec w) : BitVec w := (cswap x (x + y) c).1

/-- `math_util.rs:114-118` `csub`. -/
def csub (x y c : BitVec w) : BitVec w := (cswap x (x - y) c).1

/-- `math_util.rs:125-129` `cmul`. -/
def cmul (x y c : BitVec w) : BitVec w := (cswap x (x * y) c).1

/-- `math_util.rs:139-150` body of the loop of `ct_div` for the bit index `i`. -/
def ctDivStep (O : IntOps w) (a d : BitVec w) (i : Nat) (qr : BitVec w × BitVec w) :
    M (BitVec w × BitVec w) := do
  let r ← shl qr.2 1
  let r ← set O r 0 a i
  let geq ← O.gteBm r d
  let r := csub r d geq
  let q ← csetBit qr.1 1#w i geq
  .ok (q, r)

/-- `math_util.rs:136-152` `ct_div`; the loop runs over `(0..NUM_BITS).rev()`. -/
def ctDiv (O : IntOps w) (a d : BitVec w) : M (BitVec w × BitVec w) :=
  loop w (fun j qr => ctDivStep O a d (w - 1 - j) qr) (0#w, 0#w)

end Hacspec.MachineInt
