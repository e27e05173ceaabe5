/-! # Specification: HMAC (RFC 2104) and HKDF (RFC 5869) over a hash function with 64-byte blocks and 32-byte digests -/

namespace Hacspec.Spec

/-- RFC 2104 §2: keys longer than a block are hashed first; then zeros are appended up to the block length. -/
def hmacKey (H : List (BitVec 8) → List (BitVec 8)) (k : List (BitVec 8)) : List (BitVec 8) :=
  let k := if 64 < k.length then H k else k
  k ++ List.replicate (64 - k.length) 0

/-- RFC 2104 §2: `H(K XOR opad, H(K XOR ipad, text))`. -/
def hmac (H : List (BitVec 8) → List (BitVec 8)) (k m : List (BitVec 8)) : List (BitVec 8) :=
  H ((hmacKey H k).map (· ^^^ 0x5c#8) ++ H ((hmacKey H k).map (· ^^^ 0x36#8) ++ m))

/-- RFC 5869 §2.2. -/
def hkdfExtract (H : List (BitVec 8) → List (BitVec 8)) (salt ikm : List (BitVec 8)) : List (BitVec 8) :=
  hmac H (if salt = [] then List.replicate 32 0 else salt) ikm

/-- RFC 5869 §2.3: `T(0)` is empty, `T(i+1) = HMAC(PRK, T(i) | info | i+1)`. -/
def hkdfT (H : List (BitVec 8) → List (BitVec 8)) (prk info : List (BitVec 8)) : Nat → List (BitVec 8)
  | 0 => []
  | i + 1 => hmac H prk (hkdfT H prk info i ++ info ++ [BitVec.ofNat 8 (i + 1)])

/-- RFC 5869 §2.3: the first `L` bytes of `T(1) | … | T(N)`, `N = ⌈L/32⌉`; defined for `L ≤ 255·32`. -/
def hkdfExpand (H : List (BitVec 8) → List (BitVec 8)) (prk info : List (BitVec 8)) (L : Nat) : List (BitVec 8) :=
  (((List.range ((L + 31) / 32)).map fun i => hkdfT H prk info (i + 1)).flatten).take L

end Hacspec.Spec
