import Verif.Model.Release.Seq
import Verif.Model.Poly
import Verif.Model.VecInt

/-!
# Machine integers and polynomials in a release build

`Verif/Model/MachineInt.lean` and the parts of `Verif/Model/Poly.lean` and `VecInt.lean` that differ, under the rules of
`Verif/Model/Release/Seq.lean`.  The generic functions (`getBit`, `euclidInvert`, `polyMul` …) contain no checks of
their own; their release builds are the same functions applied to the operations below.
-/

namespace Hacspec.Release.MachineInt

open SecretInt hiding shl shrU shrS negS
open Hacspec.MachineInt (IntOps divU divS remU pubMask maxU maxS fromLiteral rotCompl cswap csub getBit)

variable {w : Nat}

/-- `uN` (`machine_integers.rs:85-223, 225-229`); division by zero panics in every build. -/
def pubU : IntOps w := { Hacspec.MachineInt.pubU with add := addP, sub := subP, mul := mulP, shr := shrU }

/-- `iN` (`machine_integers.rs:85-223, 231-235`); so does `MIN / -1`. -/
def pubS : IntOps w := { Hacspec.MachineInt.pubS with add := addP, sub := subP, mul := mulP, shr := shrS }

/-- `UN` (`machine_integers.rs:329-467, 469-473`). -/
def secU : IntOps w := { Hacspec.MachineInt.secU with shr := shrU }

/-- `IN` (`machine_integers.rs:329-467, 476-480`). -/
def secS : IntOps w := { Hacspec.MachineInt.secS with shr := shrS }

/-- `traits.rs:92-97` `set_bit`: without the assertion of L93. -/
def setBit (x b : BitVec w) (i : Nat) : M (BitVec w) := do
  let one128 ← shl (1#128) i
  let tmp1 := fromLiteral w (~~~ one128)
  let tmp2 ← shl b i
  .ok ((x &&& tmp1) ||| tmp2)

/-- `traits.rs:102-105` `set`. -/
def set (O : IntOps w) (x : BitVec w) (pos : Nat) (y : BitVec w) (yi : Nat) : M (BitVec w) := do
  let b ← getBit O y yi
  setBit x b pos

/-- `traits.rs:108-112` `Integer::rotate_left`; `assert!` remains. -/
def rotateLeft (O : IntOps w) (x : BitVec w) (n : Nat) : M (BitVec w) := do
  require (n < w)
  let a ← shl x n
  let b ← O.shr x (rotCompl w n)
  .ok (a ||| b)

/-- `traits.rs:115-119` `Integer::rotate_right`. -/
def rotateRight (O : IntOps w) (x : BitVec w) (n : Nat) : M (BitVec w) := do
  require (n < w)
  let a ← O.shr x n
  let b ← shl x (rotCompl w n)
  .ok (a ||| b)

/-- `machine_integers.rs:19-27` unsigned `sub_mod`. -/
def subModU (x rhs n : BitVec w) : M (BitVec w) := do
  let tmp ← whileM (2 ^ w + 1) (fun t => decide (t.toNat < rhs.toNat)) (fun t => addP t n) x
  let d ← subP tmp rhs
  remU d n

/-- `machine_integers.rs:30-32` (and secret L255-260) unsigned `add_mod`. -/
def addModU (x rhs n : BitVec w) : M (BitVec w) := do
  let s ← addP x rhs
  remU s n

/-- `machine_integers.rs:35-37` (and secret L263-268) unsigned `mul_mod`. -/
def mulModU (x rhs n : BitVec w) : M (BitVec w) := do
  let s ← mulP x rhs
  remU s n

/-- An `i128` computation on mathematical integers: the result wraps. -/
def i128 (z : Int) : M Int := .ok (BitVec.ofInt 128 z).toInt

/-- `math_util.rs:11-17` `signed_mod`; `MIN % -1` panics in every build. -/
def signedMod (x n : Int) : M Int := do
  require (n ≠ 0)
  let q ← Hacspec.MachineInt.i128 (x.tdiv n)
  let _ := q
  let ret := x.tmod n
  whileM (2 ^ 128 + 1) (fun r => decide (r < 0)) (fun r => i128 (r + n)) ret

/-- `machine_integers.rs:58-60` signed `sub_mod`. -/
def subModS (x rhs n : BitVec w) : M (BitVec w) := do
  let d ← i128 (x.toInt - rhs.toInt)
  let r ← signedMod d n.toInt
  .ok (BitVec.ofInt w r)

/-- `machine_integers.rs:63-65` signed `add_mod`. -/
def addModS (x rhs n : BitVec w) : M (BitVec w) := do
  let d ← i128 (x.toInt + rhs.toInt)
  let r ← signedMod d n.toInt
  .ok (BitVec.ofInt w r)

/-- `machine_integers.rs:68-70` signed `mul_mod`. -/
def mulModS (x rhs n : BitVec w) : M (BitVec w) := do
  let d ← i128 (x.toInt * rhs.toInt)
  let r ← signedMod d n.toInt
  .ok (BitVec.ofInt w r)

/-- `machine_integers.rs:78-80` signed `modulo`. -/
def moduloS (x n : BitVec w) : M (BitVec w) := do
  let r ← signedMod x.toInt n.toInt
  .ok (BitVec.ofInt w r)

/-- `math_util.rs:92-96` `cset_bit`. -/
def csetBit (x b : BitVec w) (i : Nat) (c : BitVec w) : M (BitVec w) := do
  let st ← setBit x b i
  .ok (cswap x st c).1

/-- `math_util.rs:139-150` body of the loop of `ct_div` for the bit index `i`. -/
def ctDivStep (O : IntOps w) (a d : BitVec w) (i : Nat) (qr : BitVec w × BitVec w) :
    M (BitVec w × BitVec w) := do
  let r ← shl qr.2 1
  let r ← set O r 0 a i
  let geq ← O.gteBm r d
  let r := csub r d geq
  let q ← csetBit qr.1 1#w i geq
  .ok (q, r)

/-- `math_util.rs:136-152` `ct_div`. -/
def ctDiv (O : IntOps w) (a d : BitVec w) : M (BitVec w × BitVec w) :=
  loop w (fun j qr => ctDivStep O a d (w - 1 - j) qr) (0#w, 0#w)

end Hacspec.Release.MachineInt

namespace Hacspec.Release.Poly

open Hacspec.Poly (NumOps leadingCoefficient makeFixedLength divstepsx monomial polyMul PolyTy irr fromVec)
open Hacspec.MachineInt (euclidInvert)
open Release.MachineInt

variable {w : Nat}

/-- `uN` (`machine_integers.rs:13-49`). -/
def numPubU : NumOps w := { pubU with addMod := addModU, subMod := subModU, mulMod := mulModU }
/-- `iN` (`machine_integers.rs:51-83`). -/
def numPubS : NumOps w := { pubS with addMod := addModS, subMod := subModS, mulMod := mulModS }
/-- `UN` (`machine_integers.rs:241-283`). -/
def numSecU : NumOps w := { secU with addMod := addModU, subMod := subModU, mulMod := mulModU }
/-- `IN` (`machine_integers.rs:285-326`). -/
def numSecS : NumOps w := { secS with addMod := addModS, subMod := subModS, mulMod := mulModS }

/-- `poly.rs:315-338` `extended_euclid` without the assertions of L321-322.  For `yd = 0` the number `2 * yd - 1` wraps to
`2^64 - 1` and the first `make_fixed_length` of that length panics (capacity overflow); a wrapped
`2 * yd - 2 - v.1` makes `monomial` panic in the same way. -/
def extendedEuclid (N : NumOps w) (x y : List (BitVec w)) (n : BitVec w) : M (Option (List (BitVec w))) := do
  let yd := (leadingCoefficient y).1
  require (yd > 0)
  let f := (makeFixedLength y (yd + 1)).reverse
  let g := (makeFixedLength x yd).reverse
  let s ← divstepsx N (2 * yd - 1) (2 * yd - 1) f g n
  if s.delta ≠ 0 then .ok none
  else do
    let f0 ← idx s.f 0
    let fi ← euclidInvert N.toIntOps f0 n
    require (s.v.2 ≤ 2 * yd - 2)
    let t ← monomial fi (2 * yd - 2 - s.v.2)
    let rr ← polyMul N t s.v.1 n
    .ok (some (makeFixedLength rr yd).reverse)

/-- `poly.rs:426-429` `inv`; `unwrap` panics on `Err`. -/
def pInv (N : NumOps w) (T : PolyTy w) (a : List (BitVec w)) : M (List (BitVec w)) := do
  let i ← irr T
  let r ← extendedEuclid N a i T.n
  match r with
  | some v => fromVec T v
  | none => panic

end Hacspec.Release.Poly

namespace Hacspec.Release.VecInt

open Hacspec.VecInt (zipLoop)
open Hacspec.Seq (new)
open Release.MachineInt

variable {w : Nat}

/-- `vec_integers.rs:1119-1131, 1134-1146, 1149-1161` without the assertions of L1120, L1135, L1150. -/
def vecPoly (opMod : BitVec w → BitVec w → BitVec w → M (BitVec w))
    (opWrap : BitVec w → BitVec w → BitVec w) (x y : List (BitVec w)) (n : BitVec w) :
    M (List (BitVec w)) :=
  zipLoop (fun a b => if n ≠ 0#w then opMod a b n else .ok (opWrap a b)) x y (new x.length)

/-- `vec_integers.rs:1119-1131` `vec_poly_mul`. -/
def vecPolyMul (x y : List (BitVec w)) (n : BitVec w) := vecPoly mulModU SecretInt.mul x y n
/-- `vec_integers.rs:1134-1146` `vec_poly_add`. -/
def vecPolyAdd (x y : List (BitVec w)) (n : BitVec w) := vecPoly addModU SecretInt.add x y n
/-- `vec_integers.rs:1149-1161` `vec_poly_sub`. -/
def vecPolySub (x y : List (BitVec w)) (n : BitVec w) := vecPoly subModU SecretInt.sub x y n

/-- `vec_integers.rs:1163-1169` `*` on `PublicSeq`. -/
def pubSeqMul (self rhs : List (BitVec w)) : M (List (BitVec w)) := vecPolyMul self rhs 0#w
/-- `vec_integers.rs:1172-1178` `-` on `PublicSeq`. -/
def pubSeqSub (self rhs : List (BitVec w)) : M (List (BitVec w)) := vecPolySub self rhs 0#w
/-- `vec_integers.rs:1181-1187` `+` on `PublicSeq`. -/
def pubSeqAdd (self rhs : List (BitVec w)) : M (List (BitVec w)) := vecPolyAdd self rhs 0#w

end Hacspec.Release.VecInt
