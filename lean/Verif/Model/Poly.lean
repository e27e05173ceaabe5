import Verif.Model.MachineInt

/-!
# Polynomials: `hacspec/src/poly.rs`

Coefficient sequences are lists.  The generic parameter `T: Numeric`/`T: Integer` ranges over the machine
integers; it is the parameter `N : NumOps w`.
-/

namespace Hacspec.Poly

open SecretInt MachineInt

variable {w : Nat}

/-- The operations of the trait `Numeric` used by `poly.rs`. -/
structure NumOps (w : Nat) extends IntOps w where
  /-- `ModNumeric::add_mod` -/
  addMod : BitVec w → BitVec w → BitVec w → M (BitVec w)
  /-- `ModNumeric::sub_mod` -/
  subMod : BitVec w → BitVec w → BitVec w → M (BitVec w)
  /-- `ModNumeric::mul_mod` -/
  mulMod : BitVec w → BitVec w → BitVec w → M (BitVec w)

/-- `uN` (`machine_integers.rs:13-49`). -/
def numPubU : NumOps w := { pubU with addMod := addModU, subMod := subModU, mulMod := mulModU }
/-- `iN` (`machine_integers.rs:51-83`). -/
def numPubS : NumOps w := { pubS with addMod := addModS, subMod := subModS, mulMod := mulModS }
/-- `UN` (`machine_integers.rs:241-283`). -/
def numSecU : NumOps w := { secU with addMod := addModU, subMod := subModU, mulMod := mulModU }
/-- `IN` (`machine_integers.rs:285-326`). -/
def numSecS : NumOps w := { secS with addMod := addModS, subMod := subModS, mulMod := mulModS }

/-- `poly.rs:31-37` `pad`. -/
def pad (v : List (BitVec w)) (l : Nat) : List (BitVec w) := v ++ List.replicate (l - v.length) 0#w

/-- `out.iter_mut().zip(v.iter())` assigning the elements: overwrites a prefix. -/
def overwrite : List (BitVec w) → List (BitVec w) → List (BitVec w)
  | _ :: os, v :: vs => v :: overwrite os vs
  | os, _ => os

/-- `poly.rs:40-46` `make_fixed_length`. -/
def makeFixedLength (v : List (BitVec w)) (t : Nat) : List (BitVec w) := overwrite (List.replicate t 0#w) v

/-- `poly.rs:49-56` `monomial`. -/
def monomial (c : BitVec w) (d : Nat) : M (List (BitVec w)) := setIdx (List.replicate (d + 1) 0#w) d c

/-- `poly.rs:59-62` `normalize`. -/
def normalize (x y : List (BitVec w)) : List (BitVec w) × List (BitVec w) :=
  let l := max x.length y.length
  (pad x l, pad y l)

/-- `poly.rs:69-74` loop of `leading_coefficient` over `enumerate`. -/
def leadLoop : Nat → List (BitVec w) → Nat × BitVec w → Nat × BitVec w
  | _, [], s => s
  | i, c :: cs, s => leadLoop (i + 1) cs (if c ≠ 0#w then (i, c) else s)

/-- `poly.rs:65-76` `leading_coefficient`. -/
def leadingCoefficient (x : List (BitVec w)) : Nat × BitVec w := leadLoop 0 x (0, 0#w)

/-- Element-wise loop `for (a, (&b, &c)) in out.iter_mut().zip(x.iter().zip(y.iter()))`. -/
def zipM (op : BitVec w → BitVec w → M (BitVec w)) : List (BitVec w) → List (BitVec w) → M (List (BitVec w))
  | b :: bs, c :: cs => do
    let a ← op b c
    let as ← zipM op bs cs
    .ok (a :: as)
  | _, _ => .ok []

/-- `poly.rs:79-91` `poly_sub`. -/
def polySub (N : NumOps w) (x y : List (BitVec w)) (n : BitVec w) : M (List (BitVec w)) := do
  let xy := normalize x y
  require (xy.1.length = xy.2.length)
  zipM (fun b c => if n = 0#w then N.sub b c else N.subMod b c n) xy.1 xy.2

/-- `poly.rs:94-106` `poly_add`. -/
def polyAdd (N : NumOps w) (x y : List (BitVec w)) (n : BitVec w) : M (List (BitVec w)) := do
  let xy := normalize x y
  require (xy.1.length = xy.2.length)
  zipM (fun b c => if n = 0#w then N.add b c else N.addMod b c n) xy.1 xy.2

/-- `poly.rs:110-118` `poly_mul_plain`. -/
def polyMulPlain (N : NumOps w) (x y : List (BitVec w)) : M (List (BitVec w)) :=
  loop x.length (fun i out => loop y.length (fun j out => do
    let o ← idx out (i + j)
    let xi ← idx x i
    let yj ← idx y j
    let p ← N.mul xi yj
    let s ← N.add o p
    setIdx out (i + j) s) out) (List.replicate (x.length + y.length) 0#w)

/-- `poly.rs:123-131` `poly_mul_op_scanning`. -/
def polyMulOpScanning (N : NumOps w) (x y : List (BitVec w)) (n : BitVec w) : M (List (BitVec w)) :=
  loop x.length (fun i out => loop y.length (fun j out => do
    let o ← idx out (i + j)
    let xi ← idx x i
    let yj ← idx y j
    let p ← N.mulMod xi yj n
    let s ← N.addMod o p n
    setIdx out (i + j) s) out) (List.replicate (x.length + y.length) 0#w)

/-- `x.iter().enumerate()` starting at `i`, filtered by `!x.equal(0)` (`poly.rs:139-144`). -/
def nonzeros : Nat → List (BitVec w) → List (Nat × BitVec w)
  | _, [] => []
  | i, c :: cs => if c ≠ 0#w then (i, c) :: nonzeros (i + 1) cs else nonzeros (i + 1) cs

/-- A `for` loop over an iterator. -/
def forEach {α σ : Type} : List α → (α → σ → M σ) → σ → M σ
  | [], _, s => .ok s
  | a :: as, f, s => f a s >>= forEach as f

/-- `poly.rs:151` body of the inner loop of `poly_mul`. -/
def mulStep (N : NumOps w) (n : BitVec w) (a b : Nat × BitVec w) (out : List (BitVec w)) : M (List (BitVec w)) := do
  let o ← idx out (a.1 + b.1)
  let p ← N.mulMod a.2 b.2 n
  let s ← N.addMod o p n
  setIdx out (a.1 + b.1) s

/-- `poly.rs:137-155` `poly_mul`. -/
def polyMul (N : NumOps w) (x y : List (BitVec w)) (n : BitVec w) : M (List (BitVec w)) :=
  forEach (nonzeros 0 x) (fun a out => forEach (nonzeros 0 y) (fun b out => mulStep N n a b out) out)
    (List.replicate (x.length + y.length) 0#w)

/-- `poly.rs:174-180` the quotient digit. -/
def divDigit (N : NumOps w) (n c r : BitVec w) : M (BitVec w) :=
  if n = 0#w then N.div r c
  else do
    let ci ← euclidInvert N.toIntOps c n
    N.mul r ci

/-- `poly.rs:173-188` body of the loop of `poly_div`; state `(quo, rem)`. -/
def divStep (N : NumOps w) (n c : BitVec w) (y : List (BitVec w)) (dist rlen i : Nat)
    (s : List (BitVec w) × List (BitVec w)) : M (List (BitVec w) × List (BitVec w)) := do
  let r ← idx s.2 (rlen - 1 - i)
  let t ← divDigit N n c r
  require (¬ (t = 0#w ∧ r ≠ 0#w))
  let m ← monomial t (dist - i - 1)
  let sy ← polyMul N m y n
  let quo ← polyAdd N s.1 m n
  let rem ← polySub N s.2 sy n
  .ok (quo, rem)

/-- `poly.rs:165-190` `poly_div`. -/
def polyDiv (N : NumOps w) (x y : List (BitVec w)) (n : BitVec w) : M (List (BitVec w) × List (BitVec w)) := do
  let xy := normalize x y
  let x := xy.1
  let y := xy.2
  let yc := leadingCoefficient y
  let dist := x.length - yc.1
  let qr ← loop dist (fun i s => divStep N n yc.2 y dist x.length i s) (List.replicate x.length 0#w, x)
  .ok (qr.1, makeFixedLength qr.2 yc.1)

/-- `poly.rs:193-200` `is_zero`. -/
def isZero (v : List (BitVec w)) : Bool := v.all fun x => x == 0#w

/-- `poly.rs:203-205` `poly_z_inv`: every coefficient inverted (`inv` of the machine integers). -/
def polyZInv (N : NumOps w) (v : List (BitVec w)) (n : BitVec w) : M (List (BitVec w)) :=
  v.mapM fun x => euclidInvert N.toIntOps x n

/-- `poly.rs:231-237` `poly_divx`: `v.len() - 1` panics on the empty vector. -/
def polyDivx (v : List (BitVec w)) : M (List (BitVec w)) := do
  require (1 ≤ v.length)
  .ok (overwrite (List.replicate (v.length - 1) 0#w) (v.drop 1))

/-- `poly.rs:208-228` `quot_sub`. -/
def quotSub (N : NumOps w) (an : List (BitVec w)) (ad : Nat) (bn : List (BitVec w)) (bd : Nat) (n : BitVec w) :
    M (List (BitVec w) × Nat) := do
  let cd := max ad bd
  let x ← monomial 1#w 1
  let a ← loop (cd - ad) (fun _ a => polyMul N a x n) an
  let b ← loop (cd - bd) (fun _ b => polyMul N b x n) bn
  let d ← polySub N a b n
  .ok (d, cd)

/-- Loop state of `divstepsx`; `u, v, q, r` are fractions `p / x^k`. -/
structure DivState (w : Nat) where
  delta : Int
  f : List (BitVec w)
  g : List (BitVec w)
  u : List (BitVec w) × Nat
  v : List (BitVec w) × Nat
  q : List (BitVec w) × Nat
  r : List (BitVec w) × Nat

/-- `poly.rs:263-272` reductions of the precision at the start of an iteration. -/
def divstepTrunc (nn t i : Nat) (s : DivState w) : DivState w :=
  { s with
    u := (makeFixedLength s.u.1 t, s.u.2)
    v := (makeFixedLength s.v.1 t, s.v.2)
    q := (makeFixedLength s.q.1 t, s.q.2)
    r := (makeFixedLength s.r.1 t, s.r.2)
    f := makeFixedLength s.f (nn - i)
    g := makeFixedLength s.g (nn - i) }

/-- `poly.rs:275-287` the conditional swap. -/
def divstepSwap (s : DivState w) : M (DivState w) := do
  let g0 ← if s.delta > 0 then idx s.g 0 else .ok 0#w
  if s.delta > 0 ∧ g0 ≠ 0#w then
    .ok { delta := -s.delta, f := s.g, g := s.f, u := s.q, v := s.r, q := s.u, r := s.v }
  else .ok s

/-- `poly.rs:289-310` the elimination step; `delta` is an `i128` far from overflow. -/
def divstepElim (N : NumOps w) (n : BitVec w) (s : DivState w) : M (DivState w) := do
  let fc ← idx s.f 0
  let f0 ← monomial fc 0
  let gc ← idx s.g 0
  let g0 ← monomial gc 0
  let t0 ← polyMul N f0 s.g n
  let t1 ← polyMul N g0 s.f n
  let g ← polySub N t0 t1 n
  let g ← polyDivx g
  let t0 ← polyMul N f0 s.q.1 n
  let t1 ← polyMul N g0 s.u.1 n
  let q ← quotSub N t0 s.q.2 t1 s.u.2 n
  let t0 ← polyMul N f0 s.r.1 n
  let t1 ← polyMul N g0 s.v.1 n
  let r ← quotSub N t0 s.r.2 t1 s.v.2 n
  .ok { s with delta := s.delta + 1, g := g, q := (q.1, q.2 + 1), r := (r.1, r.2 + 1) }

/-- `poly.rs:242-313` `divstepsx`; the result is the final state (the code returns `delta, f, g, v`). -/
def divstepsx (N : NumOps w) (nn t : Nat) (fin gin : List (BitVec w)) (n : BitVec w) : M (DivState w) := do
  require (t ≥ nn)
  loop nn (fun i s => do
    let s ← divstepSwap (divstepTrunc nn t i s)
    divstepElim N n s)
    { delta := 1, f := fin, g := gin, u := ([1#w], 0), v := ([0#w], 0), q := ([0#w], 0), r := ([1#w], 0) }

/-- `poly.rs:315-338` `extended_euclid`; `none` is `Err("Could not invert the polynomial")`.  The `usize`
subtractions `2 * yd - 1` and `2 * yd - 2 - v.1` are checked. -/
def extendedEuclid (N : NumOps w) (x y : List (BitVec w)) (n : BitVec w) : M (Option (List (BitVec w))) := do
  let yd := (leadingCoefficient y).1
  require (yd ≥ x.length)
  require (yd > 0)
  let f := (makeFixedLength y (yd + 1)).reverse
  let g := (makeFixedLength x yd).reverse
  let s ← divstepsx N (2 * yd - 1) (2 * yd - 1) f g n
  if s.delta ≠ 0 then .ok none
  else do
    let f0 ← idx s.f 0
    let fi ← euclidInvert N.toIntOps f0 n
    require (s.v.2 ≤ 2 * yd - 2)
    let t ← monomial fi (2 * yd - 2 - s.v.2)
    let rr ← polyMul N t s.v.1 n
    .ok (some (makeFixedLength rr yd).reverse)

/-! ## The `poly!` macro (`poly.rs:342-516`) -/

/-- Parameters of `poly!($name, $t, $l, $n, $m)`. -/
structure PolyTy (w : Nat) where
  l : Nat
  n : BitVec w
  m : List (Nat × BitVec w)

/-- `for c in p.iter() { poly[c.0] = c.1 }` -/
def setSparse (p : List (Nat × BitVec w)) (a : List (BitVec w)) : M (List (BitVec w)) :=
  forEach p (fun c a => setIdx a c.1 c.2) a

/-- `poly.rs:360-363` and the copies of it: the array `irr`. -/
def irr (T : PolyTy w) : M (List (BitVec w)) := setSparse T.m (List.replicate (T.l + 1) 0#w)

/-- `poly.rs:354-370` `new`: the array of coefficients (the fields `irr` and `n` are constants of the type). -/
def newSparse (T : PolyTy w) (p : List (Nat × BitVec w)) : M (List (BitVec w)) := do
  let a ← setSparse p (List.replicate T.l 0#w)
  let _ ← irr T
  .ok a

/-- `poly.rs:431-450` `from_vec`. -/
def fromVec (T : PolyTy w) (v : List (BitVec w)) : M (List (BitVec w)) := do
  require ((leadingCoefficient v).1 ≤ T.l)
  let _ ← irr T
  .ok (overwrite (List.replicate T.l 0#w) v)

/-- `poly.rs:479-486` `+`. -/
def pAdd (N : NumOps w) (T : PolyTy w) (a b : List (BitVec w)) : M (List (BitVec w)) := do
  let r ← polyAdd N a b T.n
  fromVec T r

/-- `poly.rs:468-475` `-`. -/
def pSub (N : NumOps w) (T : PolyTy w) (a b : List (BitVec w)) : M (List (BitVec w)) := do
  let r ← polySub N a b T.n
  fromVec T r

/-- `poly.rs:490-498` `*`. -/
def pMul (N : NumOps w) (T : PolyTy w) (a b : List (BitVec w)) : M (List (BitVec w)) := do
  let tmp ← polyMul N a b T.n
  let i ← irr T
  let r ← polyDiv N tmp i T.n
  fromVec T r.2

/-- `poly.rs:502-509` `/`. -/
def pDiv (N : NumOps w) (T : PolyTy w) (a b : List (BitVec w)) : M (List (BitVec w) × List (BitVec w)) := do
  let r ← polyDiv N a b T.n
  let q ← fromVec T r.1
  let r ← fromVec T r.2
  .ok (q, r)

/-- `poly.rs:426-429` `inv`; `unwrap` panics on `Err`. -/
def pInv (N : NumOps w) (T : PolyTy w) (a : List (BitVec w)) : M (List (BitVec w)) := do
  let i ← irr T
  let r ← extendedEuclid N a i T.n
  match r with
  | some v => fromVec T v
  | none => panic

end Hacspec.Poly
