import Verif.Model.Seq

/-!
# Random values: `random`, `get_random_vec` of `hacspec/src/array.rs` and `seq.rs`

The generator behind `rand::random` is not part of the crate.  It is modelled by the stream of the values that its successive
calls return and the number of values already taken.
-/

namespace Hacspec.Random

open SecretInt Hacspec.Seq

/-- The generator at element type `BitVec w`. -/
structure Rng (w : Nat) where
  stream : Nat → BitVec w
  taken : Nat

/-- `rand::random::<T>()`. -/
def next {w : Nat} (g : Rng w) : BitVec w × Rng w := (g.stream g.taken, { g with taken := g.taken + 1 })

/-- `array.rs:542-546`, `seq.rs:291-296` `get_random_vec` of secret arrays and of `Seq<U8>`: `(0..l).map(..).collect()`. -/
def getRandomVec {w : Nat} : Nat → Rng w → List (BitVec w) × Rng w
  | 0, g => ([], g)
  | l + 1, g =>
    let x := next g
    let xs := getRandomVec l x.2
    (classify x.1 :: xs.1, xs.2)

/-- `array.rs:618-620` `get_random_vec` of public arrays. -/
def getRandomVecPublic {w : Nat} : Nat → Rng w → List (BitVec w) × Rng w
  | 0, g => ([], g)
  | l + 1, g =>
    let x := next g
    let xs := getRandomVecPublic l x.2
    (x.1 :: xs.1, xs.2)

/-- `array.rs:243-247` `random` of an array type of length `l`: `copy_from_slice` panics unless the lengths agree, and the slice
`[..l]` if there are fewer than `l` elements. -/
def arrRandom {w : Nat} (vec : Nat → Rng w → List (BitVec w) × Rng w) (l : Nat) (g : Rng w) : M (List (BitVec w) × Rng w) :=
  let v := vec l g
  if l ≤ v.1.length then .ok (v.1.take l, v.2) else panic

/-- `seq.rs:299-303` `random` of `Seq<U8>`. -/
def seqRandom (l : Nat) (g : Rng 8) : List U8 × Rng 8 := getRandomVec l g

end Hacspec.Random
