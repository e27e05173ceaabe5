import Verif.Model.Hex

/-! # `from_hex` of arrays of words: `hacspec/src/array.rs` -/

namespace Hacspec.Hex

open SecretInt Hacspec.Seq

variable {w : Nat}

/-- `array.rs:248-255` `hex_string_to_vec` for words of `w` bits; `size_of::<$t>()` is `w / 8`.  The parsed bytes are
converted by `<$t>::from` (`secret-integers/src/lib.rs:459-468` for the secret types). -/
def hexStringToVec (w : Nat) (s : List U8) : M (List (BitVec w)) := do
  require (s.length % (w / 8) = 0)
  let b ← hexStringToBytes s
  .ok (b.map fun x => x.setWidth w)

/-- `array.rs:257-267` `from_hex` of an array type of `l` words. -/
def wordsFromHex (w l : Nat) (s : List U8) : M (List (BitVec w)) := do
  let v ← hexStringToVec w s
  require (v.length = l)
  loop l (copyStep v) (new l)

end Hacspec.Hex
