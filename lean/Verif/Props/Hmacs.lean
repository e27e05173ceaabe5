import Verif.Lemmas.Hmac
import Verif.Props.Sha256s

/-! # C33, C34: HMAC and HKDF -/

namespace Hacspec.Props

open SecretInt Spec Hmac

/-- The function that `hash` computes (C31): SHA-256, or the unpadded iteration on whole blocks. -/
def usedHash (x : List U8) : List U8 :=
  if x.length % 64 = 0 then Sha256.digest (Sha256.iterate Sha256.initial x) else Sha256.sha256 x

theorem usedHash_hash : HashFun usedHash where
  hash x hx := by
    rw [usedHash]
    split
    · exact C31_whole_blocks x ‹_› (by omega)
    · exact C31_sha256_partial x ‹_› hx

/-- **C33.**  For any function `H` that the code's `hash` computes, `hmac` computes HMAC over `H` as RFC 2104 defines
it, for all keys and messages. -/
theorem C33_hmac (H : List U8 → List U8) (hH : ∀ x, x.length < 2 ^ 61 → Sha2.hash x = .ok (H x))
    (k m : List U8) (hk : k.length < 2 ^ 61) (hm : 64 + m.length < 2 ^ 61) :
    Hmac.hmac k m = .ok (Spec.hmac H k m) := hmac_ok ⟨hH⟩ hk hm

example : Hmac.hmac [1, 2, 3] [4] = .ok (Spec.hmac usedHash [1, 2, 3] [4]) :=
  C33_hmac usedHash usedHash_hash.hash _ _ (by decide) (by decide)

/-- **C33.**  It is HMAC-SHA-256 whenever no hashed string has a length that is a multiple of 64. -/
theorem C33_hmac_sha256 (k m : List U8) (hk : k.length < 2 ^ 61) (hm : 64 + m.length < 2 ^ 61)
    (hk' : k.length ≤ 64 ∨ k.length % 64 ≠ 0) (hm' : m.length % 64 ≠ 0) :
    Hmac.hmac k m = .ok (Spec.hmac Sha256.sha256 k m) := by
  rw [C33_hmac usedHash usedHash_hash.hash k m hk hm]
  have hkey : hmacKey usedHash k = hmacKey Sha256.sha256 k := by
    rw [hmacKey, hmacKey]
    by_cases h : 64 < k.length
    · rw [if_pos h, if_pos h, usedHash, if_neg (by omega)]
    · rw [if_neg h, if_neg h]
  have hK := length_hmacKey usedHash_hash hk
  have hi : ((hmacKey usedHash k).map (· ^^^ 0x36#8) ++ m).length % 64 ≠ 0 := by
    rw [List.length_append, List.length_map, hK]; omega
  have hd := usedHash_hash.length (x := (hmacKey usedHash k).map (· ^^^ 0x36#8) ++ m)
    (by rw [List.length_append, List.length_map, hK]; omega)
  have e1 : usedHash ((hmacKey usedHash k).map (· ^^^ 0x36#8) ++ m) =
      Sha256.sha256 ((hmacKey usedHash k).map (· ^^^ 0x36#8) ++ m) := by rw [usedHash, if_neg hi]
  rw [Spec.hmac, usedHash, if_neg (by rw [List.length_append, List.length_map, hK, hd]; decide), e1, hkey]
  rfl

example : Hmac.hmac (List.replicate 131 0xaa) [0x54] =
    .ok (Spec.hmac Sha256.sha256 (List.replicate 131 0xaa) [0x54]) :=
  C33_hmac_sha256 _ _ (by simp) (by decide) (.inr (by simp)) (by decide)

/-- Outside that set it is not HMAC-SHA-256: the empty key and message (RFC 4868 value `b613679a…`). -/
theorem C33_hmac_sha256_refuted : Hmac.hmac [] [] ≠ .ok (Spec.hmac Sha256.sha256 [] []) := by
  rw [C33_hmac usedHash usedHash_hash.hash [] [] (by decide) (by decide)]
  decide +kernel

/-- The digest has 32 bytes and no input within the limits makes `hmac` panic. -/
theorem C33_length (k m : List U8) (hk : k.length < 2 ^ 61) (hm : 64 + m.length < 2 ^ 61) :
    ∃ d, Hmac.hmac k m = .ok d ∧ d.length = 32 :=
  ⟨_, hmac_ok usedHash_hash hk hm, length_hmac usedHash_hash hk hm⟩

/-- HMAC inherits the collisions of C32: for every message `m` that is not a whole number of blocks there is another
message with the same tag under every key. -/
theorem C33_collision (m : List U8) (h : m.length % 64 ≠ 0) (hm : 192 + m.length < 2 ^ 61) :
    ∃ m', m' ≠ m ∧ ∀ k, k.length < 2 ^ 61 → Hmac.hmac k m' = Hmac.hmac k m := by
  let t : List U8 := [0x80] ++ List.replicate ((119 - m.length % 64) % 64) 0 ++
    bytesBe64 (BitVec.ofNat 64 (8 * (64 + m.length)))
  have hp : ∀ b : List U8, b.length = 64 → Sha256.pad (b ++ m) = b ++ (m ++ t) := by
    intro b hb
    simp only [t, Sha256.pad, List.length_append, hb, List.append_assoc]
    rw [show (64 + m.length) % 64 = m.length % 64 by omega]
  have ht : t ≠ [] := by simp [t]
  have htl : t.length ≤ 128 := by
    simp only [t, bytesBe64, List.length_append, List.length_cons, List.length_nil, List.length_replicate]; omega
  refine ⟨m ++ t, fun e => ht (by simpa using e), fun k hk => ?_⟩
  rw [hmac_ok usedHash_hash hk (by rw [List.length_append]; omega), hmac_ok usedHash_hash hk (by omega)]
  congr 1
  have hK := length_hmacKey usedHash_hash hk
  have hb : ((hmacKey usedHash k).map (· ^^^ 0x36#8)).length = 64 := by rw [List.length_map, hK]
  generalize hbb : (hmacKey usedHash k).map (· ^^^ 0x36#8) = b at hb
  rw [Spec.hmac, Spec.hmac, hbb, ← hp b hb]
  congr 2
  rw [usedHash, if_pos (Sha2.length_pad _), usedHash, if_neg (by rw [List.length_append]; omega)]
  rfl

example : ∃ m', m' ≠ ([1] : List U8) ∧ ∀ k, k.length < 2 ^ 61 → Hmac.hmac k m' = Hmac.hmac k [1] :=
  C33_collision [1] (by decide) (by decide)

/-- **C34.**  `extract` is HKDF-Extract of RFC 5869 over the hash used. -/
theorem C34_extract (H : List U8 → List U8) (hH : ∀ x, x.length < 2 ^ 61 → Sha2.hash x = .ok (H x))
    (salt ikm : List U8) (hs : salt.length < 2 ^ 61) (hi : 64 + ikm.length < 2 ^ 61) :
    Hkdf.extract salt ikm = .ok (hkdfExtract H salt ikm) := Hkdf.extract_ok ⟨hH⟩ hs hi

example : Hkdf.extract [] [1] = .ok (hkdfExtract usedHash [] [1]) :=
  C34_extract usedHash usedHash_hash.hash _ _ (by decide) (by decide)

/-- **C34 (partial).**  `expand` is HKDF-Expand of RFC 5869 over the hash used, for all output lengths up to 8128.
Full statement: the same for all lengths up to `255·32 = 8160`; refuted by `C34_expand_limit_refuted`. -/
theorem C34_expand_partial (H : List U8 → List U8) (hH : ∀ x, x.length < 2 ^ 61 → Sha2.hash x = .ok (H x))
    (prk info : List U8) (l : Nat) (hk : prk.length < 2 ^ 61) (hi : 97 + info.length < 2 ^ 61) (hl : l ≤ 8128) :
    Hkdf.expand prk info l = .ok (hkdfExpand H prk info l) := Hkdf.expand_ok ⟨hH⟩ hk hi hl

example : Hkdf.expand [1] [2] 42 = .ok (hkdfExpand usedHash [1] [2] 42) :=
  C34_expand_partial usedHash usedHash_hash.hash _ _ _ (by decide) (by decide) (by decide)

/-- **C34 refuted** for the 32 largest lengths that the RFC and the documentation (`hkdf.rs:42`) allow; larger lengths
panic too. -/
theorem C34_expand_limit_refuted (prk info : List U8) (l : Nat) (hl : 8128 < l) :
    Hkdf.expand prk info l = panic := Hkdf.expand_panic hl

example : Hkdf.expand [1] [2] (255 * 32) = panic := C34_expand_limit_refuted _ _ _ (by decide)

/-- `expand` returns exactly `l` bytes, and a shorter output is a prefix of a longer one. -/
theorem C34_expand_prefix (prk info : List U8) (k l : Nat) (hp : prk.length < 2 ^ 61) (hi : 97 + info.length < 2 ^ 61)
    (hkl : k ≤ l) (hl : l ≤ 8128) :
    ∃ x y, Hkdf.expand prk info k = .ok x ∧ Hkdf.expand prk info l = .ok y ∧ x.length = k ∧ y.length = l ∧
      x = y.take k := by
  have hlen := Hkdf.length_flatten_T usedHash_hash hp hi
  refine ⟨_, _, Hkdf.expand_ok usedHash_hash hp hi (by omega), Hkdf.expand_ok usedHash_hash hp hi hl, ?_, ?_, ?_⟩
  · rw [hkdfExpand, List.length_take, hlen]; omega
  · rw [hkdfExpand, List.length_take, hlen]; omega
  · rw [hkdfExpand, hkdfExpand, List.take_take, Nat.min_eq_left hkl]
    obtain ⟨d, hd⟩ : ∃ d, (l + 31) / 32 = (k + 31) / 32 + d := ⟨(l + 31) / 32 - (k + 31) / 32, by omega⟩
    rw [hd, List.range_add, List.map_append, List.flatten_append, List.take_append_of_le_length]
    rw [hlen]; omega

example := C34_expand_prefix [1] [2] 10 100 (by decide) (by decide) (by decide) (by decide)

end Hacspec.Props
