import Verif.Lemmas.Seq
import Verif.Model.Usize

/-! # C118: the overflow checks of `usize` do not matter for sequences -/

namespace Hacspec.Props

open Hacspec.Seq

variable {α : Type} [Inhabited α]

theorem usize_add {a b : Nat} (h : a + b < 2 ^ 64) : Usize.add a b = .ok (a + b) := if_pos h

theorem usize_add_panic {a b : Nat} (h : ¬ a + b < 2 ^ 64) : Usize.add a b = panic := if_neg h

/-- **C118.**  Overflows of `update_sub` are windows that do not fit. -/
theorem C118_update_sub (self : List α) (startOut : Nat) (v : List α) (startIn len : Nat) (h1 : self.length < 2 ^ 63)
    (h2 : v.length < 2 ^ 63) : Usize.updateSub self startOut v startIn len = updateSub self startOut v startIn len := by
  by_cases ho : startOut + len ≤ self.length
  · rw [Usize.updateSub, updateSub, usize_add (by omega), bind_ok, require_true ho, bind_ok, bind_ok]
    by_cases hi : startIn + len ≤ v.length
    · rw [usize_add (by omega), bind_ok, require_true hi, bind_ok, bind_ok]
      refine loop_congr (fun i hi s => ?_) self
      rw [usize_add (by omega), usize_add (by omega), bind_ok]
      rfl
    · rw [require_false (show ¬ v.length ≥ startIn + len from hi), bind_panic]
      by_cases hs : startIn + len < 2 ^ 64
      · rw [usize_add hs, bind_ok, require_false (show ¬ v.length ≥ startIn + len from hi), bind_panic]
      · rw [usize_add_panic hs, bind_panic]
  · rw [Usize.updateSub, updateSub, require_false (show ¬ self.length ≥ startOut + len from ho), bind_panic]
    by_cases hs : startOut + len < 2 ^ 64
    · rw [usize_add hs, bind_ok, require_false (show ¬ self.length ≥ startOut + len from ho), bind_panic]
    · rw [usize_add_panic hs, bind_panic]

/-- **C118.**  `from_sub` and `sub`: what cannot be allocated does not fit either. -/
theorem C118_from_sub (input : List α) (start len : Nat) (h : input.length < 2 ^ 63) :
    Usize.fromSub input start len = fromSub input start len := by
  rw [Usize.fromSub, Usize.new, fromSub]
  by_cases hl : len < 2 ^ 63
  · rw [if_pos hl, bind_ok]
    exact C118_update_sub _ 0 input start len (by rw [Seq.new, List.length_replicate]; exact hl) h
  · rw [if_neg hl, bind_panic, updateSub_panic fun h' => absurd h'.2 (by omega)]

/-- **C118.**  `from_sub_range` and `subr`. -/
theorem C118_ranges (input : List α) (rStart rEnd : Nat) (h : input.length < 2 ^ 63) :
    Usize.fromSubRange input rStart rEnd = fromSubRange input rStart rEnd ∧ Usize.subr input rStart rEnd = subr input rStart rEnd := by
  rw [Usize.fromSubRange, Usize.subr, fromSubRange, subr, Usize.sub]
  by_cases hr : rStart ≤ rEnd
  · rw [if_pos hr, require_true hr, bind_ok, bind_ok, bind_ok, C118_from_sub _ _ _ h]
    exact ⟨rfl, rfl⟩
  · rw [if_neg hr, require_false hr]
    exact ⟨rfl, rfl⟩

/-- **C118.**  `num_chunks`. -/
theorem C118_num_chunks (self : List α) (chunkSize : Nat) : Usize.numChunks self chunkSize = numChunks self chunkSize := by
  rw [Usize.numChunks, numChunks, Usize.add]
  by_cases h1 : self.length + chunkSize < 2 ^ 64
  · rw [if_pos h1, require_true h1, bind_ok, bind_ok, Usize.sub]
    by_cases h2 : 1 ≤ self.length + chunkSize
    · rw [if_pos h2, require_true h2, bind_ok, bind_ok, Usize.div]
      by_cases h3 : chunkSize = 0
      · rw [if_pos h3, require_false (fun h => h h3)]
        rfl
      · rw [if_neg h3, require_true h3]
        rfl
    · rw [if_neg h2, require_false h2]
      rfl
  · rw [if_neg h1, require_false h1]
    rfl

theorem usize_mul {self : List α} {n k : Nat} (h : self.length < 2 ^ 63) (hn : n < 2 ^ 64) :
    (n * k < 2 ^ 64 ∧ n * k + n < 2 ^ 64) ∨ (¬ (n * k < 2 ^ 64 ∧ n * k + n < 2 ^ 64) ∧ self.length < n * k) := by
  by_cases h1 : n * k < 2 ^ 64 ∧ n * k + n < 2 ^ 64
  · exact .inl h1
  · refine .inr ⟨h1, ?_⟩
    rcases Nat.eq_zero_or_pos k with rfl | hk
    · rw [Nat.mul_zero] at h1
      omega
    · have := Nat.le_mul_of_pos_right n hk
      omega

/-- **C118.**  `get_chunk_len`: when the product or the sum overflows, the chunk begins after the end. -/
theorem C118_get_chunk_len (self : List α) (chunkSize chunkNumber : Nat) (h : self.length < 2 ^ 63) (hc : chunkSize < 2 ^ 64) :
    Usize.getChunkLen self chunkSize chunkNumber = getChunkLen self chunkSize chunkNumber := by
  rw [Usize.getChunkLen, getChunkLen, Usize.mul]
  rcases usize_mul (k := chunkNumber) h hc with ⟨h1, h2⟩ | ⟨h1, h2⟩
  · rw [if_pos h1, bind_ok, usize_add h2, bind_ok]
    split
    · rw [Usize.sub]
      by_cases h3 : chunkSize * chunkNumber ≤ self.length
      · rw [if_pos h3, require_true h3]
        rfl
      · rw [if_neg h3, require_false h3]
        rfl
    · rfl
  · rw [if_pos (show chunkSize * chunkNumber + chunkSize > self.length by omega), require_false (by omega), bind_panic]
    by_cases h3 : chunkSize * chunkNumber < 2 ^ 64
    · rw [if_pos h3, bind_ok, usize_add_panic fun h4 => h1 ⟨h3, h4⟩, bind_panic]
    · rw [if_neg h3, bind_panic]

theorem chunk_len_panic {self : List α} {n k : Nat} (h : self.length < n * k) : getChunkLen self n k = panic := by
  rw [getChunkLen, if_pos (show n * k + n > self.length by omega), require_false (by omega)]
  rfl

/-- **C118.**  `get_chunk` and `set_chunk`. -/
theorem C118_chunks (self : List α) (chunkSize chunkNumber : Nat) (input : List α) (h : self.length < 2 ^ 63) (hi : input.length < 2 ^ 63)
    (hc : chunkSize < 2 ^ 64) :
    Usize.getChunk self chunkSize chunkNumber = getChunk self chunkSize chunkNumber ∧
    Usize.setChunk self chunkSize chunkNumber input = setChunk self chunkSize chunkNumber input := by
  rw [Usize.getChunk, getChunk, Usize.setChunk, setChunk, C118_get_chunk_len self chunkSize chunkNumber h hc, Usize.mul]
  by_cases h3 : chunkSize * chunkNumber < 2 ^ 64
  · rw [if_pos h3]
    simp only [bind_ok, C118_from_sub _ _ _ h, C118_update_sub _ _ _ _ _ h hi, Seq.sub]
    exact ⟨trivial, trivial⟩
  · rw [if_neg h3, chunk_len_panic (by omega)]
    exact ⟨rfl, rfl⟩

/-! A window whose end overflows, and a chunk whose start does. -/
example := C118_update_sub ([1, 2, 3] : List U8) (2 ^ 64 - 1) [4, 5] 0 2 (by decide) (by decide)
example := C118_chunks ([1, 2, 3] : List U8) (2 ^ 63) 2 [4] (by decide) (by decide) (by decide)
example : Usize.setChunk ([1, 2, 3, 4, 5] : List U8) 2 1 [8, 9] = .ok [1, 2, 8, 9, 5] := by decide

end Hacspec.Props
