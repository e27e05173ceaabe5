import Verif.Lemmas.Aes

/-! # AES: the inverse transformations of FIPS 197 §5.3 undo the transformations -/

namespace Hacspec.Aes

open SecretInt Hacspec.Seq

set_option maxHeartbeats 1000000 in
/-- The column identity behind InvMixColumns: only additivity of the multiplication by `x` is used. -/
theorem col_inv {g : U8 → U8 → U8} (h1 : ∀ x, g 1 x = x) (h3 : ∀ x, g 3 x = g 2 x ^^^ x)
    (hx : ∀ x y, g 2 (x ^^^ y) = g 2 x ^^^ g 2 y)
    (h9 : ∀ x, g 0x09 x = g 2 (g 2 (g 2 x)) ^^^ x) (hb : ∀ x, g 0x0b x = g 2 (g 2 (g 2 x)) ^^^ (g 2 x ^^^ x))
    (hd : ∀ x, g 0x0d x = g 2 (g 2 (g 2 x)) ^^^ (g 2 (g 2 x) ^^^ x))
    (he : ∀ x, g 0x0e x = g 2 (g 2 (g 2 x)) ^^^ (g 2 (g 2 x) ^^^ g 2 x)) (a b c d a' b' c' d' : U8)
    (h : col g 2 1 1 3 a b c d = [a', b', c', d']) : col g 0x0e 0x09 0x0d 0x0b a' b' c' d' = [a, b, c, d] := by
  simp only [col, List.cons.injEq, and_true] at h
  obtain ⟨rfl, rfl, rfl, rfl⟩ := h
  simp only [col, h1, h3, h9, hb, hd, he, hx]
  generalize g 2 (g 2 (g 2 (g 2 a))) = a4
  generalize g 2 (g 2 (g 2 a)) = a3
  generalize g 2 (g 2 a) = a2
  generalize g 2 a = a1
  generalize g 2 (g 2 (g 2 (g 2 b))) = b4
  generalize g 2 (g 2 (g 2 b)) = b3
  generalize g 2 (g 2 b) = b2
  generalize g 2 b = b1
  generalize g 2 (g 2 (g 2 (g 2 c))) = c4
  generalize g 2 (g 2 (g 2 c)) = c3
  generalize g 2 (g 2 c) = c2
  generalize g 2 c = c1
  generalize g 2 (g 2 (g 2 (g 2 d))) = d4
  generalize g 2 (g 2 (g 2 d)) = d3
  generalize g 2 (g 2 d) = d2
  generalize g 2 d = d1
  clear h1 h3 hx h9 hb hd he
  simp only [List.cons.injEq, and_true]
  refine ⟨?_, ?_, ?_, ?_⟩ <;>
    simp only [BitVec.xor_comm, xor_left_comm, xor_cancel, BitVec.xor_self, BitVec.xor_zero]

set_option maxHeartbeats 1000000 in
theorem col_inv' {g : U8 → U8 → U8} (h1 : ∀ x, g 1 x = x) (h3 : ∀ x, g 3 x = g 2 x ^^^ x)
    (hx : ∀ x y, g 2 (x ^^^ y) = g 2 x ^^^ g 2 y)
    (h9 : ∀ x, g 0x09 x = g 2 (g 2 (g 2 x)) ^^^ x) (hb : ∀ x, g 0x0b x = g 2 (g 2 (g 2 x)) ^^^ (g 2 x ^^^ x))
    (hd : ∀ x, g 0x0d x = g 2 (g 2 (g 2 x)) ^^^ (g 2 (g 2 x) ^^^ x))
    (he : ∀ x, g 0x0e x = g 2 (g 2 (g 2 x)) ^^^ (g 2 (g 2 x) ^^^ g 2 x)) (a b c d a' b' c' d' : U8)
    (h : col g 0x0e 0x09 0x0d 0x0b a b c d = [a', b', c', d']) : col g 2 1 1 3 a' b' c' d' = [a, b, c, d] := by
  simp only [col, List.cons.injEq, and_true] at h
  obtain ⟨rfl, rfl, rfl, rfl⟩ := h
  simp only [col, h1, h3, h9, hb, hd, he, hx]
  generalize g 2 (g 2 (g 2 (g 2 a))) = a4
  generalize g 2 (g 2 (g 2 a)) = a3
  generalize g 2 (g 2 a) = a2
  generalize g 2 a = a1
  generalize g 2 (g 2 (g 2 (g 2 b))) = b4
  generalize g 2 (g 2 (g 2 b)) = b3
  generalize g 2 (g 2 b) = b2
  generalize g 2 b = b1
  generalize g 2 (g 2 (g 2 (g 2 c))) = c4
  generalize g 2 (g 2 (g 2 c)) = c3
  generalize g 2 (g 2 c) = c2
  generalize g 2 c = c1
  generalize g 2 (g 2 (g 2 (g 2 d))) = d4
  generalize g 2 (g 2 (g 2 d)) = d3
  generalize g 2 (g 2 d) = d2
  generalize g 2 d = d1
  clear h1 h3 hx h9 hb hd he
  simp only [List.cons.injEq, and_true]
  refine ⟨?_, ?_, ?_, ?_⟩ <;>
    simp only [BitVec.xor_comm, xor_left_comm, xor_cancel, BitVec.xor_self, BitVec.xor_zero]

theorem col_list (g : U8 → U8 → U8) (c0 c1 c2 c3 a b c d : U8) : ∃ a' b' c' d', col g c0 c1 c2 c3 a b c d = [a', b', c', d'] :=
  ⟨_, _, _, _, rfl⟩

theorem mixWith_inv {g : U8 → U8 → U8} {c0 c1 c2 c3 e0 e1 e2 e3 : U8}
    (h : ∀ a b c d a' b' c' d', col g c0 c1 c2 c3 a b c d = [a', b', c', d'] → col g e0 e1 e2 e3 a' b' c' d' = [a, b, c, d])
    {s : List U8} (hs : s.length = 16) : mixWith g [e0, e1, e2, e3] (mixWith g [c0, c1, c2, c3] s) = s := by
  obtain ⟨a0, a1, a2, a3, a4, a5, a6, a7, a8, a9, a10, a11, a12, a13, a14, a15, rfl⟩ := exists16 hs
  rw [mixWith_eval]
  obtain ⟨b0, b1, b2, b3, h0⟩ := col_list g c0 c1 c2 c3 a0 a1 a2 a3
  obtain ⟨b4, b5, b6, b7, h1⟩ := col_list g c0 c1 c2 c3 a4 a5 a6 a7
  obtain ⟨b8, b9, b10, b11, h2⟩ := col_list g c0 c1 c2 c3 a8 a9 a10 a11
  obtain ⟨b12, b13, b14, b15, h3⟩ := col_list g c0 c1 c2 c3 a12 a13 a14 a15
  rw [h0, h1, h2, h3]
  simp only [List.cons_append, List.nil_append]
  rw [mixWith_eval, h _ _ _ _ _ _ _ _ h0, h _ _ _ _ _ _ _ _ h1, h _ _ _ _ _ _ _ _ h2, h _ _ _ _ _ _ _ _ h3]
  rfl

theorem invMix_mix {s : List U8} (hs : s.length = 16) : Spec.Aes.invMixColumns (Spec.Aes.mixColumns s) = s :=
  mixWith_inv (col_inv gmul1 gmul3 gmul2_xor gmul9 gmulb gmuld gmule) hs

theorem mix_invMix {s : List U8} (hs : s.length = 16) : Spec.Aes.mixColumns (Spec.Aes.invMixColumns s) = s :=
  mixWith_inv (col_inv' gmul1 gmul3 gmul2_xor gmul9 gmulb gmuld gmule) hs

theorem invShift_shift {s : List U8} (hs : s.length = 16) : Spec.Aes.invShiftRows (Spec.Aes.shiftRows s) = s := by
  obtain ⟨a0, a1, a2, a3, a4, a5, a6, a7, a8, a9, a10, a11, a12, a13, a14, a15, rfl⟩ := exists16 hs
  simp [Spec.Aes.invShiftRows, Spec.Aes.shiftRows, List.range_succ]

theorem shift_invShift {s : List U8} (hs : s.length = 16) : Spec.Aes.shiftRows (Spec.Aes.invShiftRows s) = s := by
  obtain ⟨a0, a1, a2, a3, a4, a5, a6, a7, a8, a9, a10, a11, a12, a13, a14, a15, rfl⟩ := exists16 hs
  simp [Spec.Aes.invShiftRows, Spec.Aes.shiftRows, List.range_succ]

theorem invSub_subBytes (s : List U8) : Spec.Aes.invSubBytes (Spec.Aes.subBytes s) = s := by
  rw [Spec.Aes.invSubBytes, Spec.Aes.subBytes, List.map_map]
  conv => rhs; rw [← List.map_id s]
  apply List.map_congr_left
  intro x _
  exact invSub_sub x

theorem subBytes_invSub (s : List U8) : Spec.Aes.subBytes (Spec.Aes.invSubBytes s) = s := by
  rw [Spec.Aes.invSubBytes, Spec.Aes.subBytes, List.map_map]
  conv => rhs; rw [← List.map_id s]
  apply List.map_congr_left
  intro x _
  exact sub_invSub x

theorem xor_xor {s k : List U8} (h : s.length = k.length) : Spec.xor (Spec.xor s k) k = s := by
  rw [Spec.xor, Spec.xor]
  apply List.ext_getElem
  · simp; omega
  · intro i h1 h2
    simp [BitVec.xor_assoc]

theorem length_subBytes (s : List U8) : (Spec.Aes.subBytes s).length = s.length := by simp [Spec.Aes.subBytes]
theorem length_invSubBytes (s : List U8) : (Spec.Aes.invSubBytes s).length = s.length := by simp [Spec.Aes.invSubBytes]
theorem length_shiftRows (s : List U8) : (Spec.Aes.shiftRows s).length = 16 := by simp [Spec.Aes.shiftRows]
theorem length_invShiftRows (s : List U8) : (Spec.Aes.invShiftRows s).length = 16 := by simp [Spec.Aes.invShiftRows]
theorem length_mixColumns (s : List U8) : (Spec.Aes.mixColumns s).length = 16 := by simp [Spec.Aes.mixColumns]
theorem length_invMixColumns (s : List U8) : (Spec.Aes.invMixColumns s).length = 16 := by simp [Spec.Aes.invMixColumns]

end Hacspec.Aes
