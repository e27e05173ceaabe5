import Verif.Lemmas.Seq

/-! # Lemmas about chunk-wise processing -/

namespace Hacspec.Seq

open SecretInt

variable {α : Type} [Inhabited α]

theorem mul_window {cs i j : Nat} (h : i < j) : cs * i + cs ≤ cs * j := by
  calc cs * i + cs = cs * (i + 1) := by rw [Nat.mul_succ]
    _ ≤ cs * j := Nat.mul_le_mul_left _ h

/-- Reading a chunk other than the one that was replaced. -/
theorem window_other {self input : List α} {a n b m : Nat} (ha : a + n ≤ self.length) (hi : input.length = n)
    (hd : b + m ≤ a ∨ a + n ≤ b) :
    ((self.take a ++ input ++ self.drop (a + n)).drop b).take m = (self.drop b).take m := by
  apply List.ext_getElem?
  intro k
  rw [List.getElem?_take, List.getElem?_take]
  split
  · rename_i hk
    rw [List.getElem?_drop, List.getElem?_drop]
    rcases hd with hd | hd
    · rw [List.append_assoc, List.getElem?_append_left (by simp; omega), List.getElem?_take, if_pos (by omega)]
    · rw [List.getElem?_append_right (by simp; omega), List.getElem?_drop]
      congr 1; simp; omega
  · rfl

/-- Filling all chunks with the lists of `D`. -/
theorem fill_chunks {cs : Nat} (_hcs : 0 < cs) (D : List (List α)) (self : List α)
    (hD : ∀ i (h : i < D.length), D[i].length = min cs (self.length - cs * i))
    (hlen : ∀ i, i < D.length ↔ cs * i < self.length) :
    loop D.length (fun i s => do
      let x ← idx D i
      setChunk s cs i x) self = .ok D.flatten := by
  have key : ∀ k, k ≤ D.length → (D.take k).flatten.length = min (cs * k) self.length := by
    intro k hk
    induction k with
    | zero => simp
    | succ k ih =>
      have hk' : k < D.length := hk
      rw [List.take_succ_eq_append_getElem hk', List.flatten_append, List.length_append, ih (by omega)]
      have := (hlen k).mp hk'
      rw [List.flatten_singleton, hD k hk', Nat.mul_succ]; omega
  have := loop_eq (n := D.length) (fun i => (D.take i).flatten ++ self.drop (D.take i).flatten.length)
    (body := fun i s => do
      let x ← idx D i
      setChunk s cs i x) ?_
  · rw [show (D.take 0).flatten ++ self.drop (D.take 0).flatten.length = self by simp] at this
    rw [this, List.take_length]
    have h1 := key D.length (Nat.le_refl _)
    rw [List.take_length] at h1
    have h2 : ¬ cs * D.length < self.length := fun h => Nat.lt_irrefl _ ((hlen _).mpr h)
    rw [h1, List.drop_of_length_le (by omega), List.append_nil]
  · intro i hi
    have hlt := (hlen i).mp hi
    have hk := key i (by omega)
    rw [Nat.min_eq_left (by omega)] at hk
    have hl : ((D.take i).flatten ++ self.drop (D.take i).flatten.length).length = self.length := by
      rw [List.length_append, List.length_drop, hk]; omega
    rw [idx_ok hi, bind_ok, setChunk_ok (by rw [hl]; omega) (by rw [hl]; exact hD i hi)]
    congr 1
    rw [← hk, List.take_left' rfl, List.drop_append, Nat.add_sub_cancel_left,
      List.drop_of_length_le (by omega), List.nil_append, List.drop_drop]
    rw [List.take_succ_eq_append_getElem hi, List.flatten_append, List.flatten_singleton, List.length_append]

theorem length_flatMap_chunks {cs len : Nat} {g : Nat → List α} {n : Nat}
    (hg : ∀ i, i < n → (g i).length = min cs (len - cs * i)) (hn : ∀ i, i < n → cs * i < len) :
    ((List.range n).flatMap g).length = min (cs * n) len := by
  induction n with
  | zero => simp
  | succ n ih =>
    rw [List.range_succ, List.flatMap_append, List.length_append, ih (fun i hi => hg i (by omega))
      (fun i hi => hn i (by omega))]
    have := hn n (by omega)
    simp only [List.flatMap_cons, List.flatMap_nil, List.append_nil, hg n (by omega), Nat.mul_succ]
    omega

/-- A loop that replaces chunk `i` by `g i` in step `i`, next to another component that runs through `c`. -/
theorem chunk_loop {σ : Type} {n cs : Nat} (hcs : 0 < cs) (c : Nat → σ) (g : Nat → List α) {self : List α}
    {body : Nat → σ × List α → M (σ × List α)} (hn : n = (self.length + cs - 1) / cs)
    (hg : ∀ i, i < n → (g i).length = min cs (self.length - cs * i))
    (h : ∀ i, i < n → ∀ out : List α, out.length = self.length →
      body i (c i, out) = (do let o ← setChunk out cs i (g i); .ok (c (i + 1), o))) :
    loop n body (c 0, self) = .ok (c n, (List.range n).flatMap g) := by
  have hlt : ∀ i, i < n → cs * i < self.length := by
    intro i hi
    rw [hn] at hi
    have h1 : cs * (i + 1) ≤ self.length + cs - 1 :=
      Nat.le_trans (Nat.mul_le_mul_left _ hi) (Nat.mul_div_le _ _)
    rw [Nat.mul_succ] at h1; omega
  have hend : self.length ≤ cs * n := by
    rw [hn]
    have := Nat.lt_mul_div_succ (self.length + cs - 1) hcs
    rw [Nat.mul_add, Nat.mul_one] at this; omega
  have key : ∀ i, i ≤ n → ((List.range i).flatMap g).length = min (cs * i) self.length := fun i hi =>
    length_flatMap_chunks (fun j hj => hg j (by omega)) (fun j hj => hlt j (by omega))
  have := loop_eq (n := n) (fun i => (c i, (List.range i).flatMap g ++ self.drop (cs * i))) (body := body) ?_
  · simp only [List.range_zero, List.flatMap_nil, Nat.mul_zero, List.drop_zero, List.nil_append] at this
    rw [this, List.drop_of_length_le hend, List.append_nil]
  · intro i hi
    have hl := hlt i hi
    have hk := key i (by omega)
    rw [Nat.min_eq_left (by omega)] at hk
    have hlen : ((List.range i).flatMap g ++ self.drop (cs * i)).length = self.length := by
      rw [List.length_append, List.length_drop, hk]; omega
    rw [h i hi _ hlen, setChunk_ok (by rw [hlen]; omega) (by rw [hlen]; exact hg i hi), bind_ok]
    congr 2
    rw [List.take_left' hk, List.drop_append, hk, Nat.add_sub_cancel_left,
      List.drop_of_length_le (by rw [hk]; omega), List.nil_append, List.drop_drop, List.range_succ,
      List.flatMap_append, hg i hi]
    simp only [List.flatMap_cons, List.flatMap_nil, List.append_nil]
    congr 1
    rw [Nat.mul_succ]
    by_cases hc : cs ≤ self.length - cs * i
    · rw [Nat.min_eq_left hc]
    · rw [Nat.min_eq_right (by omega), List.drop_of_length_le (by omega), List.drop_of_length_le (by omega)]

theorem flatMap_getElem? {α : Type} [Inhabited α] {cs len n : Nat} {g : Nat → List α}
    (hg : ∀ i, i < n → (g i).length = min cs (len - cs * i)) (hn : ∀ i, i < n → cs * i < len) {j : Nat}
    (hj : j < min (cs * n) len) : ((List.range n).flatMap g)[j]? = (g (j / cs))[j % cs]? := by
  induction n with
  | zero => simp at hj
  | succ n ih =>
    have hl := length_flatMap_chunks (fun i hi => hg i (by omega)) (fun i hi => hn i (by omega)) (n := n)
    rw [List.range_succ, List.flatMap_append]
    have hnn := hn n (by omega)
    by_cases h : j < cs * n
    · rw [List.getElem?_append_left (by rw [hl]; omega), ih (fun i hi => hg i (by omega)) (fun i hi => hn i (by omega))
        (by omega)]
    · rw [List.getElem?_append_right (by rw [hl]; omega), hl, Nat.min_eq_left (by omega)]
      simp only [List.flatMap_cons, List.flatMap_nil, List.append_nil]
      rw [Nat.mul_succ] at hj
      have hd : j / cs = n := by
        apply Nat.div_eq_of_lt_le
        · rw [Nat.mul_comm]; omega
        · rw [Nat.add_mul, Nat.mul_comm n, Nat.one_mul]; omega
      have hmm : j % cs = j - cs * n := by
        have := Nat.div_add_mod j cs
        rw [hd] at this; omega
      rw [hd, hmm]

end Hacspec.Seq
