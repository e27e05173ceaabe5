import Verif.Model.Leak.Seq
import Verif.Model.Poly

/-! # Parts of `Verif/Model/MachineInt.lean` and `Verif/Model/Poly.lean`, with the visible events

The functions of the library that loop or branch on machine integers.  `add_mod`, `mul_mod` and `modulo` of unsigned
integers, `cswap`, `cadd`, `csub`, `cmul` and the comparison masks are straight-line code without events. -/

namespace Hacspec.Leak

/-- `while cond(s) { s = body(s) }`: a branch for every test of the condition. -/
def whileL {σ : Type} (fuel : Nat) (cond : σ → Bool) (body : σ → L σ) (s : σ) : L σ :=
  match fuel with
  | 0 => ⟨[], .error .diverge⟩
  | f + 1 => branch (cond s = true) (body s >>= whileL f cond body) (.ok s)

namespace MachineInt

open Hacspec.MachineInt (IntOps EState fromLiteral i128 cswap csub)

variable {w : Nat}

/-- `traits.rs:84-86` `get_bit`. -/
def getBit (O : IntOps w) (x : BitVec w) (i : Nat) : L (BitVec w) := do
  let s ← lift (O.shr x i)
  .ok (s &&& 1#w)

/-- `traits.rs:92-97` `set_bit`. -/
def setBit (x b : BitVec w) (i : Nat) : L (BitVec w) := do
  require (b = 1#w ∨ b = 0#w)
  let one128 ← lift (SecretInt.shl (1#128) i)
  let tmp1 := fromLiteral w (~~~ one128)
  let tmp2 ← lift (SecretInt.shl b i)
  .ok ((x &&& tmp1) ||| tmp2)

/-- `traits.rs:102-105` `set`. -/
def set (O : IntOps w) (x : BitVec w) (pos : Nat) (y : BitVec w) (yi : Nat) : L (BitVec w) := do
  let b ← getBit O y yi
  setBit x b pos

/-- `math_util.rs:92-96` `cset_bit`. -/
def csetBit (x b : BitVec w) (i : Nat) (c : BitVec w) : L (BitVec w) := do
  let st ← setBit x b i
  .ok (cswap x st c).1

/-- `math_util.rs:139-150` body of the loop of `ct_div`. -/
def ctDivStep (O : IntOps w) (a d : BitVec w) (i : Nat) (qr : BitVec w × BitVec w) : L (BitVec w × BitVec w) := do
  let r ← lift (SecretInt.shl qr.2 1)
  let r ← set O r 0 a i
  let geq ← lift (O.gteBm r d)
  let r := csub r d geq
  let q ← csetBit qr.1 1#w i geq
  .ok (q, r)

/-- `math_util.rs:136-152` `ct_div`. -/
def ctDiv (O : IntOps w) (a d : BitVec w) : L (BitVec w × BitVec w) :=
  loop w (fun j qr => ctDivStep O a d (w - 1 - j) qr) (0#w, 0#w)

/-- `machine_integers.rs:372-382` secret `pow`; the exponent is public. -/
def secPow (x : BitVec w) (exp : Nat) : L (BitVec w) :=
  branch (exp = 0) (.ok 1#w) (loop (exp - 1) (fun _ s => .ok (SecretInt.mul s x)) x)

/-- `machine_integers.rs:19-27` (and secret `machine_integers.rs:244-252`) unsigned `sub_mod`. -/
def subModU (x rhs n : BitVec w) : L (BitVec w) := do
  let tmp ← whileL (2 ^ w + 1) (fun t => decide (t.toNat < rhs.toNat)) (fun t => lift (Hacspec.MachineInt.addU t n)) x
  let d ← lift (Hacspec.MachineInt.subU tmp rhs)
  lift (Hacspec.MachineInt.remU d n)

/-- `math_util.rs:11-17` `signed_mod`. -/
def signedMod (x n : Int) : L Int := do
  lift (Hacspec.require (n ≠ 0))
  let q ← lift (i128 (x.tdiv n))
  let _ := q
  let ret := x.tmod n
  whileL (2 ^ 128 + 1) (fun r => decide (r < 0)) (fun r => lift (i128 (r + n))) ret

/-- `math_util.rs:37-40, 47-50`. -/
def subAdd (O : IntOps w) (n start prod : BitVec w) : L (BitVec w) := do
  let tmp ← whileL (2 ^ w + 1) (fun t => O.lt t prod) (fun t => lift (O.add t n)) start
  lift (O.sub tmp prod)

/-- `math_util.rs:32-54` one iteration of the main loop. -/
def euclidStep (O : IntOps w) (n : BitVec w) (s : EState w) : L (EState w) := do
  let q ← lift (O.div s.r s.newR)
  let prodR ← lift (O.mul q s.newR)
  let newR ← subAdd O n s.r prodR
  let prodT ← lift (O.mul q s.newT)
  let newT ← subAdd O n s.t prodT
  .ok { t := s.newT, r := s.newR, newT := newT, newR := newR }

/-- `math_util.rs:25-68` `extended_euclid_invert(x, n, false)`. -/
def euclidInvert (O : IntOps w) (x n : BitVec w) : L (BitVec w) := do
  let s ← whileL (2 ^ (4 * w) + 1) (fun s => decide (s.newR ≠ 0#w)) (euclidStep O n)
    { t := 0#w, r := n, newT := 1#w, newR := x }
  branch (O.lt 1#w s.r = true ∧ x ≠ 0#w) panic
    (branch (O.lt s.t 0#w = true) (lift (O.add s.t n)) (.ok s.t))

end MachineInt

/-! ## `poly.rs`, for unsigned coefficients (public or secret) -/

namespace Poly

open Hacspec.MachineInt (addModU mulModU)
open Hacspec.Poly (normalize)

variable {w : Nat}

/-- `poly.rs:69-74` loop of `leading_coefficient`. -/
def leadLoop : Nat → List (BitVec w) → Nat × BitVec w → L (Nat × BitVec w)
  | _, [], s => .ok s
  | i, c :: cs, s => do
    let s ← branch (c ≠ 0#w) (.ok (i, c)) (.ok s)
    leadLoop (i + 1) cs s

/-- `poly.rs:65-76` `leading_coefficient`. -/
def leadingCoefficient (x : List (BitVec w)) : L (Nat × BitVec w) := do
  Seq.count x.length
  leadLoop 0 x (0, 0#w)

/-- The element-wise loop of `poly_add`. -/
def zipM (op : BitVec w → BitVec w → L (BitVec w)) : List (BitVec w) → List (BitVec w) → L (List (BitVec w))
  | b :: bs, c :: cs => do
    let a ← op b c
    let as ← zipM op bs cs
    .ok (a :: as)
  | _, _ => .ok []

/-- `poly.rs:94-106` `poly_add` with a modulus. -/
def polyAdd (x y : List (BitVec w)) (n : BitVec w) : L (List (BitVec w)) := do
  let xy := normalize x y
  require (xy.1.length = xy.2.length)
  Seq.count xy.1.length
  zipM (fun b c => branch (n = 0#w) (lift ((Hacspec.Poly.numSecU).add b c)) (lift (addModU b c n))) xy.1 xy.2

/-- `poly.rs:110-118` `poly_mul_plain`. -/
def polyMulPlain (x y : List (BitVec w)) : L (List (BitVec w)) :=
  loop x.length (fun i out => loop y.length (fun j out => do
    let o ← idx out (i + j)
    let xi ← idx x i
    let yj ← idx y j
    let p ← lift ((Hacspec.Poly.numSecU).mul xi yj)
    let s ← lift ((Hacspec.Poly.numSecU).add o p)
    setIdx out (i + j) s) out) (List.replicate (x.length + y.length) 0#w)

/-- `poly.rs:123-131` `poly_mul_op_scanning`. -/
def polyMulOpScanning (x y : List (BitVec w)) (n : BitVec w) : L (List (BitVec w)) :=
  loop x.length (fun i out => loop y.length (fun j out => do
    let o ← idx out (i + j)
    let xi ← idx x i
    let yj ← idx y j
    let p ← lift (mulModU xi yj n)
    let s ← lift (addModU o p n)
    setIdx out (i + j) s) out) (List.replicate (x.length + y.length) 0#w)

/-- A `for` loop over `v.iter().enumerate().filter(|(_, &x)| !x.equal(0))`, from index `i`. -/
def forNonzero {σ : Type} : Nat → List (BitVec w) → (Nat × BitVec w → σ → L σ) → σ → L σ
  | _, [], _, s => .ok s
  | i, c :: cs, f, s => do
    let s ← branch (c ≠ 0#w) (f (i, c) s) (.ok s)
    forNonzero (i + 1) cs f s

/-- `poly.rs:151` body of the inner loop of `poly_mul`. -/
def mulStep (n : BitVec w) (a b : Nat × BitVec w) (out : List (BitVec w)) : L (List (BitVec w)) := do
  let o ← idx out (a.1 + b.1)
  let p ← lift (mulModU a.2 b.2 n)
  let s ← lift (addModU o p n)
  setIdx out (a.1 + b.1) s

/-- `poly.rs:137-155` `poly_mul`. -/
def polyMul (x y : List (BitVec w)) (n : BitVec w) : L (List (BitVec w)) := do
  Seq.count x.length
  forNonzero 0 x (fun a out => do
    Seq.count y.length
    forNonzero 0 y (fun b out => mulStep n a b out) out)
    (List.replicate (x.length + y.length) 0#w)

end Poly

end Hacspec.Leak
