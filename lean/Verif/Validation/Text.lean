import Verif.Model.Hex

/-!
# Literals for the tests of the repository
-/

namespace Hacspec.Validation

open SecretInt

/-- The bytes of an ASCII text. -/
def s (t : String) : List U8 := t.toList.map fun c => BitVec.ofNat 8 c.toNat

/-- The bytes written in hexadecimal, `[]` if the text is malformed. -/
def b (t : String) : List U8 := match Hex.seqFromHex (s t) with | .ok v => v | .error _ => []

end Hacspec.Validation
