import Verif.Model.Seq
import Verif.Lemmas.SecretInt

/-! # Lemmas about the sequence model -/

namespace Hacspec.Seq

open SecretInt

variable {α : Type}

theorem set_append_cons (a b : List α) (y x : α) : (a ++ y :: b).set a.length x = a ++ x :: b := by
  rw [List.set_append_right _ _ (Nat.le_refl _)]; simp

/-- A loop that fills the window starting at `o` with the values `g 0, g 1, ...`. -/
theorem fill_loop {n o : Nat} {s : List α} {body : Nat → List α → M (List α)} (g : Nat → α)
    (hb : ∀ i, i < n → ∀ t : List α, o + i < t.length → body i t = .ok (t.set (o + i) (g i)))
    (h : o + n ≤ s.length) :
    loop n body s = .ok (s.take o ++ (List.range n).map g ++ s.drop (o + n)) := by
  have := loop_eq (fun i => s.take o ++ (List.range i).map g ++ s.drop (o + i)) (n := n) (body := body) ?_
  · simpa using this
  · intro i hi
    have hl : (s.take o ++ (List.range i).map g).length = o + i := by simp; omega
    rw [hb i hi _ (by simp; omega)]
    have hd : s.drop (o + i) = s[o + i]'(by omega) :: s.drop (o + i + 1) := List.drop_eq_getElem_cons (by omega)
    rw [hd]
    have := set_append_cons (s.take o ++ (List.range i).map g) (s.drop (o + i + 1)) (s[o + i]'(by omega)) (g i)
    rw [hl] at this
    rw [this, List.range_succ, List.map_append]
    simp [Nat.add_assoc]

theorem map_range_getElem (v : List α) (si n : Nat) (h : si + n ≤ v.length) (d : α) :
    (List.range n).map (fun i => v.getD (si + i) d) = (v.drop si).take n := by
  apply List.ext_getElem
  · simp; omega
  · intro i h1 h2
    simp at h1 h2
    simp [List.getD_eq_getElem?_getD, List.getElem?_eq_getElem (show si + i < v.length by omega)]

theorem updateSub_ok [Inhabited α] {self v : List α} {so si len : Nat} (h1 : so + len ≤ self.length)
    (h2 : si + len ≤ v.length) :
    updateSub self so v si len = .ok (self.take so ++ (v.drop si).take len ++ self.drop (so + len)) := by
  rw [updateSub, require_true h1, require_true h2, bind_ok, bind_ok]
  rw [fill_loop (fun i => v.getD (si + i) default) _ h1, map_range_getElem v si len h2]
  intro i hi t ht
  have hv : si + i < v.length := by omega
  rw [idx_ok hv, bind_ok, setIdx_ok ht]
  simp [List.getD_eq_getElem?_getD, List.getElem?_eq_getElem hv]

theorem updateSub_panic [Inhabited α] {self v : List α} {so si len : Nat}
    (h : ¬ (so + len ≤ self.length ∧ si + len ≤ v.length)) : updateSub self so v si len = panic := by
  rw [updateSub]
  by_cases h1 : so + len ≤ self.length
  · rw [require_true h1, bind_ok, require_false (by omega), bind_panic]
  · rw [require_false (by omega), bind_panic]

theorem length_new [Inhabited α] (l : Nat) : (new l : List α).length = l := by simp [new]

theorem fromSub_ok [Inhabited α] {v : List α} {s len : Nat} (h : s + len ≤ v.length) :
    fromSub v s len = .ok ((v.drop s).take len) := by
  rw [fromSub, updateSub_ok (by simp [length_new]) h]
  simp [new]

theorem fromSub_panic [Inhabited α] {v : List α} {s len : Nat} (h : v.length < s + len) :
    fromSub v s len = panic := updateSub_panic (by omega)

theorem sub_ok [Inhabited α] {v : List α} {s len : Nat} (h : s + len ≤ v.length) :
    sub v s len = .ok ((v.drop s).take len) := fromSub_ok h

theorem sub_panic [Inhabited α] {v : List α} {s len : Nat} (h : v.length < s + len) :
    sub v s len = panic := fromSub_panic h

theorem copy_loop [Inhabited α] (x t : List α) (h : x.length ≤ t.length) :
    loop x.length (copyStep x) t = .ok (x ++ t.drop x.length) := by
  rw [fill_loop (o := 0) (fun i => x.getD (0 + i) default) _ (by omega), map_range_getElem x 0 x.length (by omega)]
  · simp
  intro i hi t ht
  rw [copyStep, idx_ok hi, bind_ok, Nat.zero_add, setIdx_ok (by omega)]
  simp [List.getD_eq_getElem?_getD, List.getElem?_eq_getElem hi]

theorem arrFromVec_ok [Inhabited α] {l : Nat} {x : List α} (h : x.length = l) : arrFromVec l x = .ok x := by
  rw [arrFromVec, require_true h, bind_ok, copy_loop _ _ (by rw [length_new, h]; exact Nat.le_refl _)]
  simp [new, h]

theorem arrFromVec_panic [Inhabited α] {l : Nat} {x : List α} (h : x.length ≠ l) : arrFromVec l x = panic := by
  rw [arrFromVec, require_false h, bind_panic]

theorem arrFromSeq_ok [Inhabited α] {l : Nat} {x : List α} (h : x.length = l) : arrFromSeq l x = .ok x :=
  arrFromVec_ok h

theorem arrFromSeq_panic [Inhabited α] {l : Nat} {x : List α} (h : x.length ≠ l) : arrFromSeq l x = panic :=
  arrFromVec_panic h

theorem arrFromSlice_ok [Inhabited α] {l : Nat} {x : List α} (h : x.length ≤ l) :
    arrFromSlice l x = .ok (x ++ List.replicate (l - x.length) default) := by
  rw [arrFromSlice, require_true h, bind_ok, copy_loop _ _ (by rw [length_new]; exact h)]
  simp [new]

theorem arrFromSlice_panic [Inhabited α] {l : Nat} {x : List α} (h : l < x.length) :
    arrFromSlice l x = panic := by
  rw [arrFromSlice, require_false (by omega), bind_panic]

theorem fromSeq_ok [Inhabited α] (x : List α) : fromSeq x = .ok x := by
  rw [fromSeq, copy_loop _ _ (by rw [length_new]; exact Nat.le_refl _)]
  simp [new]

theorem getChunkLen_ok [Inhabited α] {self : List α} {cs cn : Nat} (h : cs * cn ≤ self.length) :
    getChunkLen self cs cn = .ok (min cs (self.length - cs * cn)) := by
  simp only [getChunkLen]
  by_cases hc : cs * cn + cs > self.length
  · rw [if_pos hc, require_true h, bind_ok, Nat.min_eq_right (by omega)]
  · rw [if_neg hc, Nat.min_eq_left (by omega)]

theorem getChunkLen_panic [Inhabited α] {self : List α} {cs cn : Nat} (h : self.length < cs * cn) :
    getChunkLen self cs cn = panic := by
  simp only [getChunkLen]
  rw [if_pos (by omega), require_false (by omega), bind_panic]

theorem getChunk_ok [Inhabited α] {self : List α} {cs cn : Nat} (h : cs * cn ≤ self.length) :
    getChunk self cs cn = .ok (min cs (self.length - cs * cn), (self.drop (cs * cn)).take cs) := by
  rw [getChunk]
  simp only [getChunkLen_ok h, bind_ok]
  rw [sub_ok (by omega), bind_ok]
  congr 2
  rw [Nat.min_comm, ← List.take_take]
  rw [List.take_of_length_le (l := (self.drop (cs * cn)).take cs)]
  · simp; omega

theorem getChunk_panic [Inhabited α] {self : List α} {cs cn : Nat} (h : self.length < cs * cn) :
    getChunk self cs cn = panic := by
  rw [getChunk]; simp only [getChunkLen_panic h, bind_panic]

theorem setChunk_ok [Inhabited α] {self input : List α} {cs cn : Nat} (h : cs * cn ≤ self.length)
    (hi : input.length = min cs (self.length - cs * cn)) :
    setChunk self cs cn input =
      .ok (self.take (cs * cn) ++ input ++ self.drop (cs * cn + input.length)) := by
  rw [setChunk]
  simp only [getChunkLen_ok h, bind_ok]
  rw [require_true hi, bind_ok, updateSub_ok (by omega) (by omega)]
  rw [← hi]; simp

theorem setChunk_panic [Inhabited α] {self input : List α} {cs cn : Nat}
    (h : ¬ (cs * cn ≤ self.length ∧ input.length = min cs (self.length - cs * cn))) :
    setChunk self cs cn input = panic := by
  rw [setChunk]
  by_cases hc : cs * cn ≤ self.length
  · simp only [getChunkLen_ok hc, bind_ok]
    rw [require_false (by intro h'; exact h ⟨hc, h'⟩), bind_panic]
  · simp only [getChunkLen_panic (Nat.lt_of_not_le hc), bind_panic]

theorem numChunks_ok [Inhabited α] {self : List α} {cs : Nat} (h : 0 < cs) (hs : self.length + cs < 2 ^ 64) :
    numChunks self cs = .ok ((self.length + cs - 1) / cs) := by
  rw [numChunks, require_true hs, bind_ok, require_true (by omega), bind_ok, require_true (by omega), bind_ok]

/-- `a / b` rounded up characterised. -/
theorem ceil_div_iff {n cs i : Nat} (h : 0 < cs) : i < (n + cs - 1) / cs ↔ cs * i < n := by
  rw [← Nat.succ_le_iff, Nat.le_div_iff_mul_le h, Nat.succ_mul, Nat.mul_comm]; omega

theorem chunks_getElem? (n : Nat) (hn : 0 < n) (l : List α) (i : Nat) :
    (chunks n l)[i]? = if n * i < l.length then some ((l.drop (n * i)).take n) else none := by
  simp only [chunks, List.getElem?_map]
  split
  · rename_i h
    rw [List.getElem?_range ((ceil_div_iff hn).mpr h)]; rfl
  · rename_i h
    rw [List.getElem?_eq_none]; rfl
    simp; exact Nat.not_lt.mp (fun h' => h ((ceil_div_iff hn).mp h'))

/-! ## Word views -/

theorem set_window_succ (a b c : List α) : a ++ (b ++ c) = (a ++ b) ++ c := (List.append_assoc a b c).symm

theorem arrToBytes_ok {w : Nat} {l : Nat} {ser : List (BitVec w) → List U8}
    (hs : ∀ x, (ser [x]).length = w / 8) {self : List (BitVec w)} (h : self.length = l) :
    arrToBytes l ser self = .ok (self.flatMap fun x => ser [x]) := by
  simp only [arrToBytes]
  have := loop_eq (n := l) (fun i => (self.take i).flatMap (fun x => ser [x]) ++ new ((l - i) * (w / 8)))
    (body := fun i out => do
      let tmp ← idx self i
      let tmp := ser [tmp]
      loop (w / 8) (fun j out => do
        let b ← idx tmp j
        setIdx out (i * (w / 8) + j) b) out) ?_
  · simp [h ▸ List.take_length] at this
    rw [this]; simp [new]
  intro i hi
  have hlen : ((self.take i).flatMap fun x => ser [x]).length = i * (w / 8) := by
    rw [List.length_flatMap, List.map_congr_left (fun x _ => hs x)]
    simp [List.map_const', List.sum_replicate_nat]; rw [Nat.min_eq_left (by omega)]
  have hmul : (l - i) * (w / 8) = w / 8 + (l - (i + 1)) * (w / 8) := by
    rw [show l - i = (l - (i + 1)) + 1 by omega, Nat.succ_mul]; omega
  rw [idx_ok (by omega), bind_ok]
  simp only []
  rw [fill_loop (o := i * (w / 8)) (fun j => (ser [self[i]'(by omega)]).getD (0 + j) default)]
  · rw [map_range_getElem (ser [self[i]'(by omega)]) 0 (w / 8) (by rw [hs]; omega)]
    rw [List.take_succ_eq_append_getElem (i := i) (by omega), List.flatMap_append]
    rw [List.take_left' hlen, hmul]
    congr 1
    simp only [List.drop_zero, List.flatMap_cons, List.flatMap_nil, List.append_nil]
    rw [List.take_of_length_le (l := ser _) (by rw [hs]; exact Nat.le_refl _)]
    congr 1
    rw [← List.drop_drop, List.drop_left' hlen]
    simp [new]
  · intro j hj t ht
    have : j < (ser [self[i]'(by omega)]).length := by rw [hs]; exact hj
    rw [idx_ok this, bind_ok, setIdx_ok ht]
    simp [List.getD_eq_getElem?_getD, List.getElem?_eq_getElem this]
  · rw [List.length_append, hlen, length_new, hmul]; omega

theorem words_loop {w l : Nat} (hk : 0 < w / 8) {self : List U8} (hl : self.length = l)
    (hd : l % (w / 8) = 0) (g : List U8 → BitVec w)
    {body : Nat → List (BitVec w) → M (List (BitVec w))}
    (hb : ∀ i (hi : i < (chunks (w / 8) self).length) (t : List (BitVec w)), i < t.length →
      body i t = .ok (t.set i (g (chunks (w / 8) self)[i]))) :
    loop (chunks (w / 8) self).length body (new (l / (w / 8))) = .ok ((chunks (w / 8) self).map g) := by
  have hlen : (chunks (w / 8) self).length = l / (w / 8) := by
    rw [length_chunks, hl]
    obtain ⟨q, hq⟩ := Nat.dvd_of_mod_eq_zero hd
    rw [hq, Nat.mul_div_cancel_left _ hk, show w / 8 * q + w / 8 - 1 = (w / 8 - 1) + w / 8 * q by omega,
      Nat.add_mul_div_left _ _ hk, Nat.div_eq_of_lt (by omega)]; omega
  rw [fill_loop (o := 0) (fun i => g ((chunks (w / 8) self).getD i []))]
  · rw [hlen]
    congr 1
    simp only [List.take_zero, List.nil_append, Nat.zero_add]
    rw [List.drop_of_length_le (by simp [length_new]), List.append_nil]
    apply List.ext_getElem
    · simp [hlen]
    · intro i h1 h2
      simp at h1 h2
      simp [List.getD_eq_getElem?_getD, List.getElem?_eq_getElem h2]
  · intro i hi t ht
    rw [hb i hi t (by omega), Nat.zero_add]
    simp [List.getD_eq_getElem?_getD, List.getElem?_eq_getElem hi]
  · rw [length_new, hlen]; omega

theorem arrToWords_ok {w l : Nat} (hk : 0 < w / 8) {self : List U8} (hl : self.length = l)
    (hd : l % (w / 8) = 0) {de : List U8 → M (List (BitVec w))} (g : List U8 → BitVec w)
    (hde : ∀ c, c.length = w / 8 → de c = .ok [g c]) :
    arrToWords l de self = .ok ((chunks (w / 8) self).map g) := by
  simp only [arrToWords]
  apply words_loop hk hl hd
  intro i hi t ht
  have hc : ((chunks (w / 8) self)[i]).length = w / 8 :=
    length_of_mem_chunks hk (by rw [hl]; exact hd) (List.getElem_mem hi)
  rw [idx_ok hi, bind_ok, require_true hc, bind_ok, arrFromSlice_ok (by omega), bind_ok]
  rw [hc, Nat.sub_self, List.replicate_zero, List.append_nil, hde _ hc, bind_ok, idx_ok (by simp), bind_ok,
    setIdx_ok ht]
  rfl

theorem fromLeBytes_one {w : Nat} (hk : 0 < w / 8) (c : List U8) (h : c.length = w / 8) :
    fromLeBytes w c = .ok [wordOfLe w c] := by
  rw [fromLeBytes, require_true (by rw [h]; exact Nat.mod_self _), bind_ok]
  have := chunks_append hk c [] h
  rw [List.append_nil, chunks_nil hk] at this
  rw [this]; rfl

theorem fromBeBytes_one {w : Nat} (hk : 0 < w / 8) (c : List U8) (h : c.length = w / 8) :
    fromBeBytes w c = .ok [wordOfBe w c] := by
  rw [fromBeBytes, require_true (by rw [h]; exact Nat.mod_self _), bind_ok]
  have := chunks_append hk c [] h
  rw [List.append_nil, chunks_nil hk] at this
  rw [this]; rfl

theorem arrToLeWords_ok {w l : Nat} (hk : 0 < w / 8) {self : List U8} (hl : self.length = l)
    (hd : l % (w / 8) = 0) : arrToLeWords w l self = .ok ((chunks (w / 8) self).map (wordOfLe w)) :=
  arrToWords_ok hk hl hd _ (fun c hc => fromLeBytes_one hk c hc)

theorem arrToBeWords_ok {w l : Nat} (hk : 0 < w / 8) {self : List U8} (hl : self.length = l)
    (hd : l % (w / 8) = 0) : arrToBeWords w l self = .ok ((chunks (w / 8) self).map (wordOfBe w)) :=
  arrToWords_ok hk hl hd _ (fun c hc => fromBeBytes_one hk c hc)

theorem arrToPubWords_ok {w l : Nat} (hk : 0 < w / 8) {self : List U8} (hl : self.length = l)
    (hd : l % (w / 8) = 0) (de : List U8 → BitVec w) :
    arrToPubWords l de self = .ok ((chunks (w / 8) self).map de) := by
  simp only [arrToPubWords]
  apply words_loop hk hl hd
  intro i hi t ht
  have hc : ((chunks (w / 8) self)[i]).length = w / 8 :=
    length_of_mem_chunks hk (by rw [hl]; exact hd) (List.getElem_mem hi)
  rw [idx_ok hi, bind_ok, require_true hc, bind_ok, setIdx_ok ht]

theorem arrToLeBytes_ok {w l : Nat} {self : List (BitVec w)} (h : self.length = l) :
    arrToLeBytes l self = .ok (self.flatMap leOfWord) := by
  rw [arrToLeBytes, arrToBytes_ok (fun x => by simp [toLeBytes, length_leOfWord]) h]; simp [toLeBytes]

theorem arrToBeBytes_ok {w l : Nat} {self : List (BitVec w)} (h : self.length = l) :
    arrToBeBytes l self = .ok (self.flatMap beOfWord) := by
  rw [arrToBeBytes, arrToBytes_ok (fun x => by simp [toBeBytes, length_beOfWord]) h]; simp [toBeBytes]

theorem wordToLeBytes_ok {w : Nat} (x : BitVec w) : wordToLeBytes x = .ok (leOfWord x) := by
  rw [wordToLeBytes, arrFromVec_ok (by simp [toLeBytes, length_leOfWord])]; simp [toLeBytes]

theorem wordToBeBytes_ok {w : Nat} (x : BitVec w) : wordToBeBytes x = .ok (beOfWord x) := by
  rw [wordToBeBytes, arrFromVec_ok (by simp [toBeBytes, length_beOfWord])]; simp [toBeBytes]

theorem wordFromLeBytes_ok {w : Nat} (hk : 0 < w / 8) {s : List U8} (h : s.length = w / 8) :
    wordFromLeBytes w s = .ok (wordOfLe w s) := by
  rw [wordFromLeBytes, fromLeBytes_one hk s h, bind_ok, idx_ok (by simp)]; rfl

theorem wordFromBeBytes_ok {w : Nat} (hk : 0 < w / 8) {s : List U8} (h : s.length = w / 8) :
    wordFromBeBytes w s = .ok (wordOfBe w s) := by
  rw [wordFromBeBytes, fromBeBytes_one hk s h, bind_ok, idx_ok (by simp)]; rfl

end Hacspec.Seq
