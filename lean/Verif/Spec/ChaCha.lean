import Verif.Spec.Bytes

/-! # Specification: ChaCha20 and Poly1305 (RFC 8439) -/

namespace Hacspec.Spec.ChaCha

/-- RFC 8439 §2.1: the quarter round on four words. -/
def qr (a b c d : BitVec 32) : BitVec 32 × BitVec 32 × BitVec 32 × BitVec 32 :=
  let a := a + b; let d := (d ^^^ a).rotateLeft 16
  let c := c + d; let b := (b ^^^ c).rotateLeft 12
  let a := a + b; let d := (d ^^^ a).rotateLeft 8
  let c := c + d; let b := (b ^^^ c).rotateLeft 7
  (a, b, c, d)

/-- §2.2: the quarter round on the words of the state with the given indices. -/
def QR (x y z w : Nat) (s : List (BitVec 32)) : List (BitVec 32) :=
  let r := qr (s.getD x 0) (s.getD y 0) (s.getD z 0) (s.getD w 0)
  (((s.set x r.1).set y r.2.1).set z r.2.2.1).set w r.2.2.2

/-- §2.3: column round, then diagonal round. -/
def doubleRound (s : List (BitVec 32)) : List (BitVec 32) :=
  let s := QR 3 7 11 15 (QR 2 6 10 14 (QR 1 5 9 13 (QR 0 4 8 12 s)))
  QR 3 4 9 14 (QR 2 7 8 13 (QR 1 6 11 12 (QR 0 5 10 15 s)))

/-- `n` double rounds. -/
def rounds : Nat → List (BitVec 32) → List (BitVec 32)
  | 0, s => s
  | n + 1, s => rounds n (doubleRound s)

/-- "expand 32-byte k" in ASCII. -/
def constants : List (BitVec 8) := "expand 32-byte k".toList.map fun c => BitVec.ofNat 8 c.toNat

/-- §2.3: constants, key, counter, nonce. -/
def init (key : List (BitVec 8)) (ctr : BitVec 32) (nonce : List (BitVec 8)) : List (BitVec 32) :=
  words32le constants ++ words32le key ++ [ctr] ++ words32le nonce

/-- §2.3: the ChaCha20 block function. -/
def blockFn (key : List (BitVec 8)) (ctr : BitVec 32) (nonce : List (BitVec 8)) : List (BitVec 8) :=
  (List.zipWith (· + ·) (rounds 10 (init key ctr nonce)) (init key ctr nonce)).flatMap bytesLe32

/-- §2.4: encryption with the key stream blocks `ctr`, `ctr + 1`, … -/
def encrypt (key : List (BitVec 8)) (ctr : BitVec 32) (nonce : List (BitVec 8)) (m : List (BitVec 8)) :
    List (BitVec 8) :=
  (List.range ((m.length + 63) / 64)).flatMap fun j =>
    xor (block 64 m j) (blockFn key (ctr + BitVec.ofNat 32 j) nonce)

end Hacspec.Spec.ChaCha

namespace Hacspec.Spec.Poly1305

/-- `2^130 - 5` -/
def p : Nat := 2 ^ 130 - 5

/-- RFC 8439 §2.5: the clamped first half of the key. -/
def clampR (key : List (BitVec 8)) : Nat := leVal (key.take 16) &&& 0x0ffffffc0ffffffc0ffffffc0fffffff

/-- The second half of the key. -/
def keyS (key : List (BitVec 8)) : Nat := leVal ((key.drop 16).take 16)

/-- §2.5.1: the accumulator after all blocks; every block gets one more byte, 1. -/
def acc (r : Nat) (m : List (BitVec 8)) : Nat :=
  (List.range ((m.length + 15) / 16)).foldl (fun a i => (a + leVal (block 16 m i ++ [1])) * r % p) 0

/-- §2.5.1: the tag, the 16 low bytes of accumulator plus `s`. -/
def mac (key m : List (BitVec 8)) : List (BitVec 8) := leBytes 16 (acc (clampR key) m + keyS key)

/-- RFC 8439 §2.8: the authenticated data of the AEAD construction. -/
def macData (aad c : List (BitVec 8)) : List (BitVec 8) :=
  aad ++ pad16 aad ++ c ++ pad16 c ++ bytesLe64 (BitVec.ofNat 64 aad.length) ++ bytesLe64 (BitVec.ofNat 64 c.length)

end Hacspec.Spec.Poly1305
