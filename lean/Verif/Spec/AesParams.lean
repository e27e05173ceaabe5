import Verif.Spec.Aes

/-! # Specification: AES with a key schedule whose period is a parameter

FIPS 197 §5.2 uses `nk` both as the number of words of the key and as the period of the schedule. Here they are two numbers. -/

namespace Hacspec.Spec.Aes

/-- The next word of a schedule for a key of `w` words that treats the words whose number is a multiple of `p` apart. -/
def nextWordAs (w p : Nat) (ws : List (List (BitVec 8))) : List (BitVec 8) :=
  let i := ws.length
  let last := ws.getD (i - 1) []
  xor (ws.getD (i - w) [])
    (if i % p = 0 then xor (subBytes (rotWord last)) (rcon (i / p))
     else if 6 < p ∧ i % p = 4 then subBytes last
     else last)

/-- `n` further words. -/
def expandAs (w p : Nat) : Nat → List (List (BitVec 8)) → List (List (BitVec 8))
  | 0, ws => ws
  | n + 1, ws => expandAs w p n ws ++ [nextWordAs w p (expandAs w p n ws)]

/-- The schedule for `nr` rounds. -/
def scheduleAs (w p nr : Nat) (key : List (BitVec 8)) : List (List (BitVec 8)) :=
  expandAs w p (4 * (nr + 1) - w) ((List.range w).map (block 4 key))

/-- The cipher with that schedule. -/
def cipherAs (w p nr : Nat) (key s : List (BitVec 8)) : List (BitVec 8) :=
  let ws := scheduleAs w p nr key
  xor (shiftRows (subBytes (rounds ws (nr - 1) s))) (roundKey ws nr)

end Hacspec.Spec.Aes
