import Verif.Lemmas.Release.Seq

/-! # What the sequence and array functions do in a release build -/

namespace Hacspec.Release.Seq

open Hacspec.Seq (new copyStep)

variable {α : Type} [Inhabited α]

theorem updateSub_ok {v x : List α} {so si len : Nat} (h : len = 0 ∨ so + len ≤ v.length ∧ si + len ≤ x.length) :
    updateSub v so x si len = .ok (v.take so ++ (x.drop si).take len ++ v.drop (so + len)) := by
  rcases h with h | ⟨h1, h2⟩
  · subst h; simp [updateSub]
  · exact updateSub_keeps _ (Hacspec.Seq.updateSub_ok h1 h2)

theorem updateSub_panic {v x : List α} {so si len : Nat}
    (h : ¬ (len = 0 ∨ so + len ≤ v.length ∧ si + len ≤ x.length)) : updateSub v so x si len = panic := by
  -- the number of elements that can be copied
  let k := min (v.length - so) (x.length - si)
  have hk : k < len := by simp only [k]; omega
  unfold updateSub
  have hp := updateSub_ok (v := v) (x := x) (so := so) (si := si) (len := k) (by simp only [k]; omega)
  unfold updateSub at hp
  refine loop_panic hk hp ?_
  by_cases hx : si + k < x.length
  · rw [idx_ok hx, bind_ok, setIdx_panic]
    simp only [k] at hx ⊢
    simp
    omega
  · rw [idx_panic (by omega), bind_panic]

theorem copy_panic {x t : List α} (h : t.length < x.length) : loop x.length (copyStep x) t = panic := by
  have := updateSub_panic (v := t) (x := x) (so := 0) (si := 0) (len := x.length) (by omega)
  simp only [updateSub, Nat.zero_add] at this
  exact this

theorem fromSub_ok {v : List α} {s len : Nat} (h : len = 0 ∨ s + len ≤ v.length) :
    fromSub v s len = .ok ((v.drop s).take len) := by
  rw [fromSub, updateSub_ok (by simp [new]; omega)]
  simp [new]

theorem fromSub_panic {v : List α} {s len : Nat} (h : ¬ (len = 0 ∨ s + len ≤ v.length)) : fromSub v s len = panic :=
  updateSub_panic (by omega)

theorem arrFromVec_ok {l : Nat} {x : List α} (h : x.length ≤ l) :
    arrFromVec l x = .ok (x ++ List.replicate (l - x.length) default) := by
  rw [arrFromVec, Hacspec.Seq.copy_loop _ _ (by simp [new, h])]
  simp [new]

theorem arrFromVec_panic {l : Nat} {x : List α} (h : l < x.length) : arrFromVec l x = panic :=
  copy_panic (by simp [new, h])

theorem arrFromSub_ok {l : Nat} {v : List α} {s len : Nat} (h : len = 0 ∨ len ≤ l ∧ s + len ≤ v.length) :
    arrFromSub l v s len = .ok ((v.drop s).take len ++ List.replicate (l - len) default) := by
  rw [arrFromSub, updateSub_ok (by simp [new]; omega)]
  simp [new]

theorem arrFromSub_panic {l : Nat} {v : List α} {s len : Nat} (h : ¬ (len = 0 ∨ len ≤ l ∧ s + len ≤ v.length)) :
    arrFromSub l v s len = panic :=
  updateSub_panic (by simp [new]; omega)

/-- `sub` with an arbitrary wrapped start and the length that `get_chunk` computes. -/
theorem getChunk_aux {v : List α} {cs s : Nat} (hv : v.length < 2 ^ 63) (hcs : cs < 2 ^ 64) (hs : s < 2 ^ 64)
    (h0 : cs = 0 → s = 0) :
    (do let out ← sub v s (if (s + cs) % 2 ^ 64 > v.length then usizeSub v.length s else cs)
        .ok ((if (s + cs) % 2 ^ 64 > v.length then usizeSub v.length s else cs), out) : M (Nat × List α)) =
      if s ≤ v.length ∧ s + cs < 2 ^ 64 then .ok (min cs (v.length - s), (v.drop s).take cs) else panic := by
  generalize hL : (if (s + cs) % 2 ^ 64 > v.length then usizeSub v.length s else cs) = L
  rw [usizeSub] at hL
  rw [sub]
  by_cases h1 : s + cs < 2 ^ 64
  · rw [Nat.mod_eq_of_lt h1] at hL
    by_cases h2 : s ≤ v.length
    · rw [if_pos (show s ≤ v.length ∧ s + cs < 2 ^ 64 from ⟨h2, h1⟩)]
      have : L = min cs (v.length - s) := by
        rw [← hL, if_pos h2]; split <;> omega
      rw [this, fromSub_ok (by omega), bind_ok, List.take_eq_take_min (i := cs), List.length_drop]
    · have : L = 2 ^ 64 - (s - v.length) := by
        rw [← hL, if_neg h2, if_pos (by omega)]
      rw [if_neg (by omega), this, fromSub_panic (by omega), bind_panic]
  · rw [Nat.mod_eq_sub_mod (by omega), Nat.mod_eq_of_lt (by omega)] at hL
    have : L ≠ 0 ∧ v.length < s + L := by
      rw [← hL]
      split
      · split <;> omega
      · omega
    rw [if_neg (by omega), fromSub_panic (by omega), bind_panic]

theorem start_lt (a b : Nat) : a * b % 2 ^ 64 < 2 ^ 64 := Nat.mod_lt _ (by decide)

theorem start_zero {a b : Nat} (h : a = 0) : a * b % 2 ^ 64 = 0 := by rw [h, Nat.zero_mul]

theorem getChunk_eq {v : List α} {cs cn : Nat} (hv : v.length < 2 ^ 63) (hcs : cs < 2 ^ 64) :
    getChunk v cs cn =
      if cs * cn % 2 ^ 64 ≤ v.length ∧ cs * cn % 2 ^ 64 + cs < 2 ^ 64 then
        .ok (min cs (v.length - cs * cn % 2 ^ 64), (v.drop (cs * cn % 2 ^ 64)).take cs)
      else panic :=
  getChunk_aux hv hcs (start_lt _ _) start_zero

theorem setChunk_aux {v x : List α} {cs s : Nat} (hv : v.length < 2 ^ 63) (hcs : cs < 2 ^ 64) (hs : s < 2 ^ 64)
    (h0 : cs = 0 → s = 0) :
    updateSub v s x 0 (if (s + cs) % 2 ^ 64 > v.length then usizeSub v.length s else cs) =
      if s ≤ v.length ∧ s + cs < 2 ^ 64 ∧ min cs (v.length - s) ≤ x.length then
        .ok (v.take s ++ x.take (min cs (v.length - s)) ++ v.drop (s + min cs (v.length - s)))
      else panic := by
  generalize hL : (if (s + cs) % 2 ^ 64 > v.length then usizeSub v.length s else cs) = L
  rw [usizeSub] at hL
  by_cases h1 : s + cs < 2 ^ 64
  · rw [Nat.mod_eq_of_lt h1] at hL
    by_cases h2 : s ≤ v.length
    · have : L = min cs (v.length - s) := by
        rw [← hL, if_pos h2]; split <;> omega
      rw [this]
      by_cases h4 : min cs (v.length - s) ≤ x.length
      · rw [if_pos ⟨h2, h1, h4⟩, updateSub_ok (by omega), List.drop_zero]
      · rw [if_neg (fun h => h4 h.2.2), updateSub_panic (by omega)]
    · have : L = 2 ^ 64 - (s - v.length) := by
        rw [← hL, if_neg h2, if_pos (by omega)]
      rw [if_neg (fun h => h2 h.1), this, updateSub_panic (by omega)]
  · rw [Nat.mod_eq_sub_mod (by omega), Nat.mod_eq_of_lt (by omega)] at hL
    have : L ≠ 0 ∧ v.length < s + L := by
      rw [← hL]
      split
      · split <;> omega
      · omega
    rw [if_neg (fun h => h1 h.2.1), updateSub_panic (by omega)]

/-- `set_chunk` with an arbitrary wrapped start. -/
theorem setChunk_eq {v x : List α} {cs cn : Nat} (hv : v.length < 2 ^ 63) (hcs : cs < 2 ^ 64) :
    setChunk v cs cn x =
      if cs * cn % 2 ^ 64 ≤ v.length ∧ cs * cn % 2 ^ 64 + cs < 2 ^ 64 ∧
          min cs (v.length - cs * cn % 2 ^ 64) ≤ x.length then
        .ok (v.take (cs * cn % 2 ^ 64) ++ x.take (min cs (v.length - cs * cn % 2 ^ 64)) ++
          v.drop (cs * cn % 2 ^ 64 + min cs (v.length - cs * cn % 2 ^ 64)))
      else panic :=
  setChunk_aux hv hcs (start_lt _ _) start_zero

end Hacspec.Release.Seq
