import Verif.Model.NatMod
import Verif.Model.Poly
import Verif.Model.VecInt

/-!
# The trait `Numeric` and the functions that are generic over it

`hacspec/src/traits.rs` declares the traits `NumericBase`, `ModNumeric` and `Numeric`; the public functions of
`hacspec/src/poly.rs` and the `vec_poly_*` functions of `vec_integers.rs` take any `T: Numeric`.  `Verif/Model/Poly.lean`
and `VecInt.lean` model them for machine integers; here they are modelled for an arbitrary implementation, whose methods
may panic (`unimplemented!()`).
-/

namespace Hacspec.Numeric

open SecretInt MachineInt AbstractInt

/-- The methods of an implementation of `Numeric` that the generic functions call. -/
structure Num (α : Type) where
  /-- `Default::default` -/
  zero : α
  /-- `+`, `-`, `*` -/
  add : α → α → M α
  sub : α → α → M α
  mul : α → α → M α
  /-- `ModNumeric::add_mod`, `sub_mod`, `mul_mod` -/
  addMod : α → α → α → M α
  subMod : α → α → α → M α
  mulMod : α → α → α → M α
  /-- `NumericBase::div`, `inv` -/
  div : α → α → M α
  inv : α → α → M α
  /-- `NumericBase::equal` -/
  equal : α → α → M Bool
  /-- `NumericBase::wrap_add`, `wrap_sub`, `wrap_mul` -/
  wrapAdd : α → α → M α
  wrapSub : α → α → M α
  wrapMul : α → α → M α

/-! ## Implementations -/

/-- `machine_integers.rs:14-229, 241-470`: the machine integers (public or secret, signed or unsigned). -/
def machine {w : Nat} (N : Poly.NumOps w) : Num (BitVec w) where
  zero := 0#w
  add := N.add
  sub := N.sub
  mul := N.mul
  addMod := N.addMod
  subMod := N.subMod
  mulMod := N.mulMod
  div := N.div
  inv := fun c n => euclidInvert N.toIntOps c n
  equal := fun a b => .ok (a == b)
  wrapAdd := fun a b => .ok (SecretInt.add a b)
  wrapSub := fun a b => .ok (SecretInt.sub a b)
  wrapMul := fun a b => .ok (SecretInt.mul a b)

/-- `math_integers.rs:2-133, 136-267, 270-401, 404-535`: bounded big integers; the operators of `abstract_int.rs`, and
`unimplemented!()` for the rest. -/
def bigInt (bits : Nat) (signed : Bool) : Num Canvas where
  zero := AbstractInt.default bits
  add := AbstractInt.add bits signed
  sub := AbstractInt.sub bits signed
  mul := AbstractInt.mul bits signed
  addMod := fun _ _ _ => panic
  subMod := fun _ _ _ => panic
  mulMod := fun _ _ _ => panic
  div := fun _ _ => panic
  inv := fun _ _ => panic
  equal := fun _ _ => panic
  wrapAdd := AbstractInt.add bits signed
  wrapSub := AbstractInt.sub bits signed
  wrapMul := AbstractInt.mul bits signed

/-- `math_integers.rs:538-669, 672-839`: modular integers (secret and public). -/
def natMod (T : NatMod.NatTy) : Num Canvas where
  zero := NatMod.default T
  add := NatMod.add T
  sub := NatMod.sub T
  mul := NatMod.mul T
  addMod := fun _ _ _ => panic
  subMod := fun _ _ _ => panic
  mulMod := fun _ _ _ => panic
  div := fun _ _ => panic
  inv := fun _ _ => panic
  equal := fun _ _ => panic
  wrapAdd := NatMod.add T
  wrapSub := NatMod.sub T
  wrapMul := NatMod.mul T

/-- `vec_integers.rs:8-284`: arrays of `l` unsigned public integers. -/
def publicArray (w l : Nat) : Num (List (BitVec w)) where
  zero := List.replicate l 0#w
  add := VecInt.arrAdd l
  sub := VecInt.arrSub l
  mul := VecInt.arrMulPublic
  addMod := fun _ _ _ => panic
  subMod := fun _ _ _ => panic
  mulMod := fun _ _ _ => panic
  div := fun _ _ => panic
  inv := fun _ _ => panic
  equal := fun _ _ => panic
  wrapAdd := VecInt.arrAdd l
  wrapSub := VecInt.arrSub l
  wrapMul := VecInt.arrMulPublic

/-- `vec_integers.rs:529-770`: arrays of `l` unsigned secret integers. -/
def secretArray (w l : Nat) : Num (List (BitVec w)) where
  zero := List.replicate l 0#w
  add := VecInt.arrAdd l
  sub := VecInt.arrSub l
  mul := VecInt.arrMulSecret l
  addMod := fun _ _ _ => panic
  subMod := fun _ _ _ => panic
  mulMod := fun _ _ _ => panic
  div := fun _ _ => panic
  inv := fun _ _ => panic
  equal := fun _ _ => panic
  wrapAdd := VecInt.arrAdd l
  wrapSub := VecInt.arrSub l
  wrapMul := VecInt.arrMulSecret l

/-- `vec_integers.rs:287-526, 773-1115`: arrays of `l` signed integers, public or secret; the operators are
`unimplemented!()`, too. -/
def signedArray (w l : Nat) : Num (List (BitVec w)) where
  zero := List.replicate l 0#w
  add := fun _ _ => panic
  sub := fun _ _ => panic
  mul := fun _ _ => panic
  addMod := fun _ _ _ => panic
  subMod := fun _ _ _ => panic
  mulMod := fun _ _ _ => panic
  div := fun _ _ => panic
  inv := fun _ _ => panic
  equal := fun _ _ => panic
  wrapAdd := fun _ _ => panic
  wrapSub := fun _ _ => panic
  wrapMul := fun _ _ => panic

/-! ## `poly.rs` -/

variable {α : Type} (N : Num α)

/-- `poly.rs:31-37` `pad`. -/
def pad (v : List α) (l : Nat) : List α := v ++ List.replicate (l - v.length) N.zero

/-- `poly.rs:40-46` the loop of `make_fixed_length`. -/
def overwrite : List α → List α → List α
  | _ :: os, v :: vs => v :: overwrite os vs
  | os, _ => os

/-- `poly.rs:40-46` `make_fixed_length`. -/
def makeFixedLength (v : List α) (t : Nat) : List α := overwrite (List.replicate t N.zero) v

/-- `poly.rs:49-56` `monomial`. -/
def monomial (c : α) (d : Nat) : M (List α) := setIdx (List.replicate (d + 1) N.zero) d c

/-- `poly.rs:59-62` `normalize`. -/
def normalize (x y : List α) : List α × List α :=
  let l := max x.length y.length
  (pad N x l, pad N y l)

/-- `poly.rs:69-74` the loop of `leading_coefficient`. -/
def leadLoop : Nat → List α → Nat × α → M (Nat × α)
  | _, [], s => .ok s
  | i, c :: cs, s => do
    let e ← N.equal c N.zero
    leadLoop (i + 1) cs (if e then s else (i, c))

/-- `poly.rs:65-76` `leading_coefficient`. -/
def leadingCoefficient (x : List α) : M (Nat × α) := leadLoop N 0 x (0, N.zero)

/-- Element-wise loop. -/
def zipM (op : α → α → M α) : List α → List α → M (List α)
  | b :: bs, c :: cs => do
    let a ← op b c
    let as ← zipM op bs cs
    .ok (a :: as)
  | _, _ => .ok []

/-- `poly.rs:79-91` `poly_sub`. -/
def polySub (x y : List α) (n : α) : M (List α) := do
  let xy := normalize N x y
  require (xy.1.length = xy.2.length)
  zipM (fun b c => do
    let e ← N.equal n N.zero
    if e then N.sub b c else N.subMod b c n) xy.1 xy.2

/-- `poly.rs:94-106` `poly_add`. -/
def polyAdd (x y : List α) (n : α) : M (List α) := do
  let xy := normalize N x y
  require (xy.1.length = xy.2.length)
  zipM (fun b c => do
    let e ← N.equal n N.zero
    if e then N.add b c else N.addMod b c n) xy.1 xy.2

/-- `poly.rs:110-118` `poly_mul_plain`. -/
def polyMulPlain (x y : List α) : M (List α) :=
  loop x.length (fun i out => loop y.length (fun j out => do
    let o ← idx out (i + j)
    let xi ← idx x i
    let yj ← idx y j
    let p ← N.mul xi yj
    let s ← N.add o p
    setIdx out (i + j) s) out) (List.replicate (x.length + y.length) N.zero)

/-- `poly.rs:123-131` `poly_mul_op_scanning`. -/
def polyMulOpScanning (x y : List α) (n : α) : M (List α) :=
  loop x.length (fun i out => loop y.length (fun j out => do
    let o ← idx out (i + j)
    let xi ← idx x i
    let yj ← idx y j
    let p ← N.mulMod xi yj n
    let s ← N.addMod o p n
    setIdx out (i + j) s) out) (List.replicate (x.length + y.length) N.zero)

/-- A `for` loop over `v.iter().enumerate().filter(|(_, &x)| !x.equal(T::default()))`, from index `i`; the filter is
evaluated lazily. -/
def forNonzero {σ : Type} : Nat → List α → (Nat × α → σ → M σ) → σ → M σ
  | _, [], _, s => .ok s
  | i, c :: cs, f, s => do
    let e ← N.equal c N.zero
    let s ← if e then .ok s else f (i, c) s
    forNonzero (i + 1) cs f s

/-- `poly.rs:151` body of the inner loop of `poly_mul`. -/
def mulStep (n : α) (a b : Nat × α) (out : List α) : M (List α) := do
  let o ← idx out (a.1 + b.1)
  let p ← N.mulMod a.2 b.2 n
  let s ← N.addMod o p n
  setIdx out (a.1 + b.1) s

/-- `poly.rs:137-155` `poly_mul`. -/
def polyMul (x y : List α) (n : α) : M (List α) :=
  forNonzero N 0 x (fun a out => forNonzero N 0 y (fun b out => mulStep N n a b out) out)
    (List.replicate (x.length + y.length) N.zero)

/-- `poly.rs:174-180` the quotient digit. -/
def divDigit (n c r : α) : M α := do
  let e ← N.equal n N.zero
  if e then N.div r c
  else do
    let ci ← N.inv c n
    N.mul r ci

/-- `poly.rs:173-188` body of the loop of `poly_div`; `&&` is lazy. -/
def divStep (n c : α) (y : List α) (dist rlen i : Nat) (s : List α × List α) : M (List α × List α) := do
  let r ← idx s.2 (rlen - 1 - i)
  let t ← divDigit N n c r
  let e ← N.equal t N.zero
  if e then do
    let e' ← N.equal r N.zero
    require (e' = true)
  else .ok ()
  let m ← monomial N t (dist - i - 1)
  let sy ← polyMul N m y n
  let quo ← polyAdd N s.1 m n
  let rem ← polySub N s.2 sy n
  .ok (quo, rem)

/-- `poly.rs:165-190` `poly_div`. -/
def polyDiv (x y : List α) (n : α) : M (List α × List α) := do
  let xy := normalize N x y
  let x := xy.1
  let y := xy.2
  let yc ← leadingCoefficient N y
  let dist := x.length - yc.1
  let qr ← loop dist (fun i s => divStep N n yc.2 y dist x.length i s) (List.replicate x.length N.zero, x)
  .ok (qr.1, makeFixedLength N qr.2 yc.1)

/-! ## `vec_integers.rs` -/

/-- `vec_integers.rs:1119-1161` `vec_poly_mul`, `vec_poly_add`, `vec_poly_sub`. -/
def vecPoly (opMod : α → α → α → M α) (opWrap : α → α → M α) (x y : List α) (n : α) : M (List α) := do
  require (x.length = y.length)
  loop x.length (fun i out => do
    let e ← N.equal n N.zero
    let a ← idx x i
    let b ← idx y i
    let c ← if e then opWrap a b else opMod a b n
    setIdx out i c) (List.replicate x.length N.zero)

/-- `vec_integers.rs:1119-1131` `vec_poly_mul`. -/
def vecPolyMul (x y : List α) (n : α) := vecPoly N N.mulMod N.wrapMul x y n
/-- `vec_integers.rs:1134-1146` `vec_poly_add`. -/
def vecPolyAdd (x y : List α) (n : α) := vecPoly N N.addMod N.wrapAdd x y n
/-- `vec_integers.rs:1149-1161` `vec_poly_sub`. -/
def vecPolySub (x y : List α) (n : α) := vecPoly N N.subMod N.wrapSub x y n

end Hacspec.Numeric
