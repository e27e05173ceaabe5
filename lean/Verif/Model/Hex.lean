import Verif.Model.Seq

/-!
# Hexadecimal strings: `hacspec/src/util.rs`, `seq.rs`, `array.rs`

A Rust `&str` is modelled by its UTF-8 bytes.  Slicing `s[i..i+2]` panics when the cut is not on a
character boundary; a two-byte slice that contains a non-ASCII byte is never a number, so in both cases
the call panics, as it does in the model.
-/

namespace Hacspec.Hex

open SecretInt Hacspec.Seq

/-- `char::to_digit(16)` on a byte. -/
def digit (c : U8) : Option Nat :=
  if 48 ≤ c.toNat ∧ c.toNat ≤ 57 then some (c.toNat - 48)
  else if 97 ≤ c.toNat ∧ c.toNat ≤ 102 then some (c.toNat - 87)
  else if 65 ≤ c.toNat ∧ c.toNat ≤ 70 then some (c.toNat - 55)
  else none

/-- `u8::from_str_radix(s, 16)` on a two-byte string (Rust standard library, `from_str_radix`): a
leading `+` is skipped, everything else must be hexadecimal digits. -/
def parsePair (c0 c1 : U8) : Option U8 :=
  if c0.toNat = 43 then (digit c1).map (BitVec.ofNat 8)
  else match digit c0, digit c1 with
    | some h, some l => some (BitVec.ofNat 8 (16 * h + l))
    | _, _ => none

/-- `util.rs:10-17`, `abstract_int.rs:16-23` `hex_string_to_bytes` (also `array.rs:248-255` for byte types).  An odd-length string
panics in the assertion (`util.rs:11`) or in the last slice (`array.rs:252`). -/
def hexStringToBytes (s : List U8) : M (List U8) :=
  match s with
  | [] => .ok []
  | [_] => panic
  | c0 :: c1 :: rest =>
    match parsePair c0 c1 with
    | none => panic
    | some b => do
      let bs ← hexStringToBytes rest
      .ok (b :: bs)

/-- `seq.rs:233-250`, `269-286` `from_hex`, `from_string` of `Seq<U8>` and `PublicSeq<u8>`. -/
def seqFromHex (s : List U8) : M (List U8) := do
  let v ← hexStringToBytes s
  .ok (fromVec (v.map classify))

/-- `array.rs:248-267` `from_hex` of a byte array type of length `l`. -/
def arrFromHex (l : Nat) (s : List U8) : M (List U8) := do
  let v ← hexStringToBytes s
  require (v.length = l)
  loop l (copyStep v) (new l)

/-- One lower-case hexadecimal digit. -/
def hexChar (n : Nat) : U8 := if n < 10 then BitVec.ofNat 8 (48 + n) else BitVec.ofNat 8 (87 + n)

/-- `format!("{:02x}", b)`. -/
def fmt02x (b : U8) : List U8 := [hexChar (b.toNat / 16), hexChar (b.toNat % 16)]

/-- `seq.rs:306-309`, `324-327`, `array.rs:709-712, 791-794` `to_hex`. -/
def toHex (self : List U8) : List U8 := self.flatMap fmt02x

end Hacspec.Hex
