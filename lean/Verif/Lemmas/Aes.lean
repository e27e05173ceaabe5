import Verif.Lemmas.Bytes
import Verif.Lemmas.Chunk
import Verif.Lemmas.ChaCha
import Verif.Lemmas.AesTables

/-! # AES: the model refines FIPS 197 -/

namespace Hacspec.Aes

open SecretInt Hacspec.Seq
open Spec (bytesBe32)

theorem exists16 {α : Type} {s : List α} (h : s.length = 16) : ∃ a0 a1 a2 a3 a4 a5 a6 a7 a8 a9 a10 a11 a12 a13 a14 a15,
    s = [a0, a1, a2, a3, a4, a5, a6, a7, a8, a9, a10, a11, a12, a13, a14, a15] := by
  rcases s with _ | ⟨a0, _ | ⟨a1, _ | ⟨a2, _ | ⟨a3, _ | ⟨a4, _ | ⟨a5, _ | ⟨a6, _ | ⟨a7, _ | ⟨a8, _ | ⟨a9, _ | ⟨a10, _ | ⟨a11,
    _ | ⟨a12, _ | ⟨a13, _ | ⟨a14, _ | ⟨a15, _ | ⟨a16, s⟩⟩⟩⟩⟩⟩⟩⟩⟩⟩⟩⟩⟩⟩⟩⟩⟩ <;> simp at h
  exact ⟨a0, a1, a2, a3, a4, a5, a6, a7, a8, a9, a10, a11, a12, a13, a14, a15, rfl⟩

theorem exists4 {α : Type} {s : List α} (h : s.length = 4) : ∃ a b c d, s = [a, b, c, d] := by
  rcases s with _ | ⟨a0, _ | ⟨a1, _ | ⟨a2, _ | ⟨a3, _ | ⟨a4, s⟩⟩⟩⟩⟩ <;> simp at h
  exact ⟨a0, a1, a2, a3, rfl⟩

/-- The loop `out[i] ^= key[i]`. -/
theorem xor_loop {s k : List U8} {n : Nat} (hs : n ≤ s.length) (hk : n ≤ k.length) :
    loop n (fun i out => do
      let x ← idx out i
      let y ← idx k i
      setIdx out i (x ^^^ y)) s = .ok (Spec.xor (s.take n) (k.take n) ++ s.drop n) := by
  induction n with
  | zero => simp [Spec.xor]
  | succ n ih =>
    rw [loop_succ, ih (by omega) (by omega), bind_ok]
    have hl : (Spec.xor (s.take n) (k.take n)).length = n := by simp [Spec.xor]; omega
    have hx : (Spec.xor (s.take n) (k.take n) ++ s.drop n)[n]? = some s[n] := by
      rw [List.getElem?_append_right (by omega), hl, Nat.sub_self, List.getElem?_drop, Nat.add_zero,
        List.getElem?_eq_getElem (by omega)]
    rw [idx_eq_ok.mpr hx, bind_ok, idx_ok (by omega), bind_ok, setIdx_ok (by simp [hl]; omega),
      set_append_ge (by omega), hl, Nat.sub_self, List.drop_eq_getElem_cons (by omega), List.set_cons_zero,
      List.take_succ_eq_append_getElem (by omega), List.take_succ_eq_append_getElem (by omega), Spec.xor, Spec.xor,
      List.zipWith_append (by simp; omega), List.append_assoc]
    rfl

theorem addRoundKey_ok {s k : List U8} (hs : s.length = 16) (hk : k.length = 16) :
    addRoundKey s k = .ok (Spec.xor s k) := by
  rw [addRoundKey, xor_loop (by omega) (by omega), List.take_of_length_le (by omega), List.take_of_length_le (by omega),
    List.drop_of_length_le (by omega), List.append_nil]

theorem xorBlock_ok {s k : List U8} (hs : s.length = 16) (hk : k.length = 16) :
    xorBlock s k = .ok (Spec.xor s k) := addRoundKey_ok hs hk

theorem length_xor (a b : List U8) : (Spec.xor a b).length = min a.length b.length := by simp [Spec.xor]

theorem length_xor16 {a b : List U8} (ha : a.length = 16) (hb : b.length = 16) : (Spec.xor a b).length = 16 := by
  rw [length_xor]; omega

theorem subBytes_ok {s : List U8} (hs : s.length = 16) : subBytes s = .ok (Spec.Aes.subBytes s) := by
  rw [subBytes, fill_loop (o := 0) (fun i => Spec.Aes.sub (s.getD i 0)) _ (by omega)]
  · rw [List.take_zero, List.nil_append, List.drop_of_length_le (by omega), List.append_nil, Spec.Aes.subBytes]
    congr 1
    apply List.ext_getElem
    · simp [hs]
    · intro i h1 h2
      simp at h1 h2
      simp [List.getD_eq_getElem?_getD, List.getElem?_eq_getElem h2]
  · intro i hi t ht
    rw [idx_getD 0 (by omega), bind_ok, subByte_ok, bind_ok, Nat.zero_add, setIdx_ok (by omega)]

theorem shiftRows_ok {s : List U8} (hs : s.length = 16) : shiftRows s = .ok (Spec.Aes.shiftRows s) := by
  obtain ⟨a0, a1, a2, a3, a4, a5, a6, a7, a8, a9, a10, a11, a12, a13, a14, a15, rfl⟩ := exists16 hs
  simp [shiftRows, shiftRow, idx, setIdx, Spec.Aes.shiftRows, List.range_succ]

/-- The product of every column with the polynomial `cs` modulo `x^4 + 1`, for a multiplication `g`. -/
def mixWith (g : U8 → U8 → U8) (cs s : List U8) : List U8 :=
  (List.range 16).map fun k =>
    (List.range 4).foldl (fun r j => r ^^^ g (cs.getD ((k % 4 + 4 - j) % 4) 0) (s.getD (4 * (k / 4) + j) 0)) 0

theorem mixColumns_mixWith (s : List U8) : Spec.Aes.mixColumns s = mixWith Spec.Aes.gmul Spec.Aes.coeffs s := rfl
theorem invMixColumns_mixWith (s : List U8) :
    Spec.Aes.invMixColumns s = mixWith Spec.Aes.gmul Spec.Aes.invCoeffs s := rfl

/-- One column. -/
def col (g : U8 → U8 → U8) (c0 c1 c2 c3 a b c d : U8) : List U8 :=
  [g c0 a ^^^ g c3 b ^^^ g c2 c ^^^ g c1 d, g c1 a ^^^ g c0 b ^^^ g c3 c ^^^ g c2 d,
   g c2 a ^^^ g c1 b ^^^ g c0 c ^^^ g c3 d, g c3 a ^^^ g c2 b ^^^ g c1 c ^^^ g c0 d]

theorem mixWith_eval (g : U8 → U8 → U8) (c0 c1 c2 c3 a0 a1 a2 a3 a4 a5 a6 a7 a8 a9 a10 a11 a12 a13 a14 a15 : U8) :
    mixWith g [c0, c1, c2, c3] [a0, a1, a2, a3, a4, a5, a6, a7, a8, a9, a10, a11, a12, a13, a14, a15] =
      col g c0 c1 c2 c3 a0 a1 a2 a3 ++ col g c0 c1 c2 c3 a4 a5 a6 a7 ++ col g c0 c1 c2 c3 a8 a9 a10 a11 ++
        col g c0 c1 c2 c3 a12 a13 a14 a15 := by
  simp [mixWith, col, List.range_succ]

/-- What `mix_column` computes, for a function `t` that is `xtime`. -/
def mixF (t : U8 → U8) (a b c d : U8) : List U8 :=
  [a ^^^ (a ^^^ b ^^^ c ^^^ d) ^^^ t (a ^^^ b), b ^^^ (a ^^^ b ^^^ c ^^^ d) ^^^ t (b ^^^ c),
   c ^^^ (a ^^^ b ^^^ c ^^^ d) ^^^ t (c ^^^ d), d ^^^ (a ^^^ b ^^^ c ^^^ d) ^^^ t (d ^^^ a)]

/-- The state after `mix_column`. -/
def mixSet (t : U8 → U8) (c : Nat) (s : List U8) : List U8 :=
  let a := s.getD (4 * c) 0
  let b := s.getD (4 * c + 1) 0
  let e := s.getD (4 * c + 2) 0
  let d := s.getD (4 * c + 3) 0
  (((s.set (4 * c) (a ^^^ (a ^^^ b ^^^ e ^^^ d) ^^^ t (a ^^^ b))).set (4 * c + 1) (b ^^^ (a ^^^ b ^^^ e ^^^ d) ^^^ t (b ^^^ e))).set
    (4 * c + 2) (e ^^^ (a ^^^ b ^^^ e ^^^ d) ^^^ t (e ^^^ d))).set (4 * c + 3) (d ^^^ (a ^^^ b ^^^ e ^^^ d) ^^^ t (d ^^^ a))

theorem mixColumn_ok {t : U8 → U8} (ht : ∀ x, xtime x = .ok (t x)) {c : Nat} {s : List U8} (h : 4 * c + 3 < s.length) :
    mixColumn c s = .ok (mixSet t c s) := by
  rw [mixColumn, idx_getD 0 (by omega), bind_ok, idx_getD 0 (by omega), bind_ok, idx_getD 0 (by omega), bind_ok,
    idx_getD 0 (by omega), bind_ok, ht, bind_ok, setIdx_ok (by omega), bind_ok, ht, bind_ok,
    setIdx_ok (by simp only [List.length_set]; omega), bind_ok, ht, bind_ok,
    setIdx_ok (by simp only [List.length_set]; omega), bind_ok, ht, bind_ok,
    setIdx_ok (by simp only [List.length_set]; omega)]
  rfl

theorem length_mixSet (t : U8 → U8) (c : Nat) (s : List U8) : (mixSet t c s).length = s.length := by simp [mixSet]

theorem mixSet_eval (t : U8 → U8) (a0 a1 a2 a3 a4 a5 a6 a7 a8 a9 a10 a11 a12 a13 a14 a15 : U8) :
    mixSet t 3 (mixSet t 2 (mixSet t 1 (mixSet t 0
      [a0, a1, a2, a3, a4, a5, a6, a7, a8, a9, a10, a11, a12, a13, a14, a15]))) =
      mixF t a0 a1 a2 a3 ++ mixF t a4 a5 a6 a7 ++ mixF t a8 a9 a10 a11 ++ mixF t a12 a13 a14 a15 := by
  simp [mixSet, mixF]

theorem mixColumns_eval {t : U8 → U8} (ht : ∀ x, xtime x = .ok (t x))
    (a0 a1 a2 a3 a4 a5 a6 a7 a8 a9 a10 a11 a12 a13 a14 a15 : U8) :
    mixColumns [a0, a1, a2, a3, a4, a5, a6, a7, a8, a9, a10, a11, a12, a13, a14, a15] =
      .ok (mixF t a0 a1 a2 a3 ++ mixF t a4 a5 a6 a7 ++ mixF t a8 a9 a10 a11 ++ mixF t a12 a13 a14 a15) := by
  rw [mixColumns, mixColumn_ok ht (by simp), bind_ok, mixColumn_ok ht (by simp [length_mixSet]), bind_ok,
    mixColumn_ok ht (by simp [length_mixSet]), bind_ok, mixColumn_ok ht (by simp [length_mixSet]), mixSet_eval]

theorem mixF_col {g : U8 → U8 → U8} (h1 : ∀ x, g 1 x = x) (h3 : ∀ x, g 3 x = g 2 x ^^^ x)
    (hx : ∀ x y, g 2 (x ^^^ y) = g 2 x ^^^ g 2 y) (a b c d : U8) : mixF (g 2) a b c d = col g 2 1 1 3 a b c d := by
  have e : ∀ a b c d : U8, a ^^^ (a ^^^ b ^^^ c ^^^ d) = b ^^^ c ^^^ d := by
    intro a b c d; rw [BitVec.xor_assoc a b, BitVec.xor_assoc a, xor_cancel]
  simp only [mixF, col, h1, h3, hx, e]
  simp only [List.cons.injEq, and_true]
  refine ⟨?_, ?_, ?_, ?_⟩ <;>
    simp only [BitVec.xor_assoc, BitVec.xor_comm, xor_left_comm, xor_cancel, BitVec.xor_self, BitVec.xor_zero]

theorem mixColumns_ok {s : List U8} (hs : s.length = 16) : mixColumns s = .ok (Spec.Aes.mixColumns s) := by
  obtain ⟨a0, a1, a2, a3, a4, a5, a6, a7, a8, a9, a10, a11, a12, a13, a14, a15, rfl⟩ := exists16 hs
  rw [mixColumns_eval xtime_ok, mixColumns_mixWith, Spec.Aes.coeffs, mixWith_eval]
  simp only [mixF_col gmul1 gmul3 gmul2_xor]

end Hacspec.Aes
