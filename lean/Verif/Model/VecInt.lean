import Verif.Model.Seq
import Verif.Model.MachineInt

/-!
# Element-wise vector arithmetic: `hacspec/src/vec_integers.rs`
-/

namespace Hacspec.VecInt

open SecretInt MachineInt Hacspec.Seq

variable {w : Nat}

/-- The loop `for i in 0..self.len() { out[i] = op(self[i], rhs[i]) }` used throughout
`vec_integers.rs`. -/
def zipLoop (op : BitVec w → BitVec w → M (BitVec w)) (self rhs out : List (BitVec w)) :
    M (List (BitVec w)) :=
  loop self.length (fun i out => do
    let a ← idx self i
    let b ← idx rhs i
    let c ← op a b
    setIdx out i c) out

/-- `vec_integers.rs:25-39, 532-546` (public, secret) `+` on arrays of length `l`. -/
def arrAdd (l : Nat) (self rhs : List (BitVec w)) : M (List (BitVec w)) := do
  require (self.length = rhs.length)
  zipLoop (fun a b => .ok (SecretInt.add a b)) self rhs (new l)

/-- `vec_integers.rs:42-56`, `549-563` `-` on arrays. -/
def arrSub (l : Nat) (self rhs : List (BitVec w)) : M (List (BitVec w)) := do
  require (self.length = rhs.length)
  zipLoop (fun a b => .ok (SecretInt.sub a b)) self rhs (new l)

/-- `vec_integers.rs:566-580` `*` on secret arrays. -/
def arrMulSecret (l : Nat) (self rhs : List (BitVec w)) : M (List (BitVec w)) := do
  require (self.length = rhs.length)
  zipLoop (fun a b => .ok (SecretInt.mul a b)) self rhs (new l)

/-- `vec_integers.rs:72-86` `/` on public unsigned arrays. -/
def arrDiv (l : Nat) (self rhs : List (BitVec w)) : M (List (BitVec w)) := do
  require (self.length = rhs.length)
  zipLoop divU self rhs (new l)

/-- `vec_integers.rs:113-127` `^` on public arrays. -/
def arrXorPublic (l : Nat) (self rhs : List (BitVec w)) : M (List (BitVec w)) := do
  require (self.length = rhs.length)
  zipLoop (fun a b => .ok (a ^^^ b)) self rhs (new l)

/-- `vec_integers.rs:607-617` `^` on secret arrays. -/
def arrXorSecret (l : Nat) (self rhs : List (BitVec w)) : M (List (BitVec w)) :=
  zipLoop (fun a b => .ok (a ^^^ b)) self rhs (new l)

/-- `vec_integers.rs:583-640, 89-150` `%`, `!`, `|`, `&`, `>>`, `<<` on arrays: `unimplemented!()`. -/
def arrUnimplemented (_self _rhs : List (BitVec w)) : M (List (BitVec w)) := panic

/-- `vec_integers.rs:1119-1131` `vec_poly_mul`, `1134-1146` `vec_poly_add`, `1149-1161` `vec_poly_sub`
on unsigned public elements; the container's `create` succeeds (the same container type as `x`). -/
def vecPoly (opMod : BitVec w → BitVec w → BitVec w → M (BitVec w))
    (opWrap : BitVec w → BitVec w → BitVec w) (x y : List (BitVec w)) (n : BitVec w) :
    M (List (BitVec w)) := do
  require (x.length = y.length)
  zipLoop (fun a b => if n ≠ 0#w then opMod a b n else .ok (opWrap a b)) x y (new x.length)

/-- `vec_integers.rs:1119-1131` `vec_poly_mul`. -/
def vecPolyMul (x y : List (BitVec w)) (n : BitVec w) := vecPoly mulModU SecretInt.mul x y n
/-- `vec_integers.rs:1134-1146` `vec_poly_add`. -/
def vecPolyAdd (x y : List (BitVec w)) (n : BitVec w) := vecPoly addModU SecretInt.add x y n
/-- `vec_integers.rs:1149-1161` `vec_poly_sub`. -/
def vecPolySub (x y : List (BitVec w)) (n : BitVec w) := vecPoly subModU SecretInt.sub x y n

/-- `vec_integers.rs:59-69` `*` on public arrays. -/
def arrMulPublic (self rhs : List (BitVec w)) : M (List (BitVec w)) := do
  require (self.length = rhs.length)
  vecPolyMul self rhs 0#w

/-- `vec_integers.rs:1163-1169` `*` on `PublicSeq` (documented as "Polynomial multiplication on ℤ[x]"). -/
def pubSeqMul (self rhs : List (BitVec w)) : M (List (BitVec w)) := vecPolyMul self rhs 0#w
/-- `vec_integers.rs:1172-1178` `-` on `PublicSeq`. -/
def pubSeqSub (self rhs : List (BitVec w)) : M (List (BitVec w)) := vecPolySub self rhs 0#w
/-- `vec_integers.rs:1181-1187` `+` on `PublicSeq`. -/
def pubSeqAdd (self rhs : List (BitVec w)) : M (List (BitVec w)) := vecPolyAdd self rhs 0#w

/-- `vec_integers.rs:1205-1215` `^` on `PublicSeq`: the output starts as the *empty* default sequence and
is zipped with the operands. -/
def pubSeqXor (self rhs : List (BitVec w)) : List (BitVec w) :=
  let out : List (BitVec w) := []
  List.zipWith (fun _ (bc : BitVec w × BitVec w) => bc.1 ^^^ bc.2) out (self.zip rhs)

end Hacspec.VecInt
