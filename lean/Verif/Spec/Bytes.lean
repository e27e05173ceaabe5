/-! # Specification: bytes, words and blocks -/

namespace Hacspec.Spec

/-- Big-endian word of four bytes. -/
def be32 (a b c d : BitVec 8) : BitVec 32 := a ++ b ++ c ++ d
/-- Little-endian word of four bytes. -/
def le32 (a b c d : BitVec 8) : BitVec 32 := d ++ c ++ b ++ a
/-- Big-endian word of eight bytes. -/
def be64 (a b c d e f g h : BitVec 8) : BitVec 64 := a ++ b ++ c ++ d ++ e ++ f ++ g ++ h
/-- Little-endian word of eight bytes. -/
def le64 (a b c d e f g h : BitVec 8) : BitVec 64 := h ++ g ++ f ++ e ++ d ++ c ++ b ++ a

/-- The four bytes of a word, most significant first. -/
def bytesBe32 (x : BitVec 32) : List (BitVec 8) :=
  [x.extractLsb' 24 8, x.extractLsb' 16 8, x.extractLsb' 8 8, x.extractLsb' 0 8]
/-- The four bytes of a word, least significant first. -/
def bytesLe32 (x : BitVec 32) : List (BitVec 8) :=
  [x.extractLsb' 0 8, x.extractLsb' 8 8, x.extractLsb' 16 8, x.extractLsb' 24 8]
/-- The eight bytes of a word, most significant first. -/
def bytesBe64 (x : BitVec 64) : List (BitVec 8) :=
  [x.extractLsb' 56 8, x.extractLsb' 48 8, x.extractLsb' 40 8, x.extractLsb' 32 8,
   x.extractLsb' 24 8, x.extractLsb' 16 8, x.extractLsb' 8 8, x.extractLsb' 0 8]
/-- The eight bytes of a word, least significant first. -/
def bytesLe64 (x : BitVec 64) : List (BitVec 8) :=
  [x.extractLsb' 0 8, x.extractLsb' 8 8, x.extractLsb' 16 8, x.extractLsb' 24 8,
   x.extractLsb' 32 8, x.extractLsb' 40 8, x.extractLsb' 48 8, x.extractLsb' 56 8]

/-- The `i`-th block of `n` elements (the last one may be shorter). -/
def block {α : Type} (n : Nat) (l : List α) (i : Nat) : List α := (l.drop (n * i)).take n

/-- Words of a byte string, four bytes each, big-endian. -/
def words32be : List (BitVec 8) → List (BitVec 32)
  | a :: b :: c :: d :: l => be32 a b c d :: words32be l
  | _ => []
/-- Words of a byte string, four bytes each, little-endian. -/
def words32le : List (BitVec 8) → List (BitVec 32)
  | a :: b :: c :: d :: l => le32 a b c d :: words32le l
  | _ => []
/-- Words of a byte string, eight bytes each, little-endian. -/
def words64le : List (BitVec 8) → List (BitVec 64)
  | a :: b :: c :: d :: e :: f :: g :: h :: l => le64 a b c d e f g h :: words64le l
  | _ => []

/-- The number with the given bytes, least significant first. -/
def leVal : List (BitVec 8) → Nat
  | [] => 0
  | b :: l => b.toNat + 256 * leVal l

/-- The `n` least significant bytes of a number, least significant first. -/
def leBytes : Nat → Nat → List (BitVec 8)
  | 0, _ => []
  | n + 1, x => BitVec.ofNat 8 x :: leBytes n (x / 256)

/-- The exclusive or of two strings. -/
def xor (a b : List (BitVec 8)) : List (BitVec 8) := List.zipWith (· ^^^ ·) a b

/-- The zeros that fill a string up to a multiple of 16 bytes. -/
def pad16 (l : List (BitVec 8)) : List (BitVec 8) := List.replicate ((16 - l.length % 16) % 16) 0

end Hacspec.Spec
