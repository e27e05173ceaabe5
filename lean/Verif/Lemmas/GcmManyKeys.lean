import Mathlib.LinearAlgebra.Lagrange
import Verif.Lemmas.GcmKeys

/-! # GHASH under many keys -/

namespace Hacspec.Universal

open Polynomial Spec Gf128 Spec.Gcm

theorem ghash_append {k p : List U8} (hk : k.length = 16) (hp : p.length % 16 = 0) (q : List U8) :
    el (ghash k (p ++ q)) = el (ghash k p) * el k ^ nb q + el (ghash k q) := by
  obtain ⟨n, hn⟩ : ∃ n, p.length = 16 * n := ⟨p.length / 16, by omega⟩
  have e1 : nb (p ++ q) = n + nb q := by rw [nb, nb, List.length_append]; omega
  have e2 : nb p = n := by rw [nb]; omega
  rw [el_ghash hk, el_ghash hk, el_ghash hk, eval_hpoly, eval_hpoly, eval_hpoly, e1, e2, Finset.sum_range_add, Finset.sum_mul]
  refine congrArg₂ (· + ·) (Finset.sum_congr rfl fun i hi => ?_) (Finset.sum_congr rfl fun i hi => ?_)
  · rw [Finset.mem_range] at hi
    rw [HashStructure.block_append_left (by omega), mul_assoc, ← pow_add, show n + nb q - i = n - i + nb q by omega]
  · rw [HashStructure.block_append_right hn, show n + nb q - (n + i) = nb q - i by omega]

theorem ghash_block {k b : List U8} (hk : k.length = 16) (hb : b.length = 16) : el (ghash k b) = el b * el k := by
  rw [el_ghash hk, eval_hpoly, show nb b = 1 by rw [nb, hb]]
  rw [Finset.sum_range_one, Nat.sub_zero, pow_one, block, Nat.mul_zero, List.drop_zero, List.take_of_length_le hb.le]

theorem text_of (B : Nat → AdjoinRoot P) (n : Nat) :
    ∃ c : List U8, c.length = 16 * n ∧ ∀ i, i < n → el (block 16 c i) = B i := by
  induction n with
  | zero => exact ⟨[], rfl, fun i hi => absurd hi (by omega)⟩
  | succ n ih =>
    obtain ⟨c, h1, h2⟩ := ih
    obtain ⟨b, h3, h4⟩ := el_surjective (B n)
    refine ⟨c ++ b, by rw [List.length_append]; omega, fun i hi => ?_⟩
    rcases Nat.lt_or_ge i n with h | h
    · rw [HashStructure.block_append_left (by omega), h2 i h]
    · obtain rfl : i = n := by omega
      have := HashStructure.block_append_right (x := b) (j := 0) h1
      rw [Nat.add_zero] at this
      rw [this, block, Nat.mul_zero, List.drop_zero, List.take_of_length_le h3.le, h4]

/-- A polynomial without constant term is the one of a text. -/
theorem text_of_poly (f : (AdjoinRoot P)[X]) (n : Nat) (hd : f.natDegree ≤ n) (h0 : f.coeff 0 = 0) :
    ∃ c : List U8, c.length = 16 * n ∧ hpoly (fun i => el (block 16 c i)) n = f := by
  obtain ⟨c, h1, h2⟩ := text_of (fun i => f.coeff (n - i)) n
  refine ⟨c, h1, Polynomial.ext fun j => ?_⟩
  rw [coeff_hpoly]
  split
  · rw [h2 _ (by omega), show n - (n - j) = j by omega]
  · rcases Nat.eq_zero_or_pos j with rfl | hj
    · exact h0.symm
    · exact (coeff_eq_zero_of_natDegree_lt (by omega)).symm

theorem text_poly_inj {n : Nat} {c c' : List U8} (hc : c.length = 16 * n) (hc' : c'.length = 16 * n)
    (h : hpoly (fun i => el (block 16 c i)) n = hpoly (fun i => el (block 16 c' i)) n) : c = c' := by
  by_contra hne
  obtain ⟨i, h1, h2⟩ := exists_block_ne 16 (by norm_num) (by rw [hc, hc']) hne
  have h1 : i < n := by omega
  have := congrArg (fun f => f.coeff (n - i)) h
  simp only [coeff_hpoly] at this
  rw [if_pos (by omega), if_pos (by omega), show n - (n - i) = i by omega] at this
  refine h2 (el_inj ?_ (length_block_le _ _) this)
  rw [block, block, List.length_take, List.length_take, List.length_drop, List.length_drop, hc, hc']

theorem el_zero : el (List.replicate 16 0) = 0 := by
  rw [el, ← toPoly_wordOfBe (by rw [List.length_replicate]), show SecretInt.wordOfBe 128 (List.replicate 16 0) = 0#128 by decide +kernel,
    toPoly_zero, map_zero]

theorem el_ne_zero {k : List U8} (hk : k.length = 16) (h : k ≠ List.replicate 16 0) : el k ≠ 0 := by
  intro h0
  rw [← el_zero] at h0
  exact h (el_inj (by rw [hk, List.length_replicate]) hk.le h0)

/-- For `n` different keys other than 0, data before and a block after it, masks and a tag, there is exactly one text of `n`
blocks that has this tag under all the keys. -/
theorem many_keys {n : Nat} {hs es : Nat → List U8} (hh : ∀ i, i < n → (hs i).length = 16)
    (hz : ∀ i, i < n → hs i ≠ List.replicate 16 0) (hinj : ∀ i j, i < n → j < n → hs i = hs j → i = j)
    (he : ∀ i, i < n → (es i).length = 16) {a l t : List U8} (ha : a.length % 16 = 0) (hl : l.length = 16)
    (ht : t.length = 16) :
    ∃ c : List U8, c.length = 16 * n ∧ ∀ c' : List U8, c'.length = 16 * n →
      ((∀ i, i < n → xor (ghash (hs i) (a ++ (c' ++ l))) (es i) = t) ↔ c' = c) := by
  classical
  have hxl : ∀ a c : List U8, a.length = 16 → c.length = 16 → (xor a c).length = 16 := by
    intro a c ha hc
    rw [Spec.xor, List.length_zipWith]; omega
  let v : Nat → AdjoinRoot P := fun i => if i < n then el (hs i) else 0
  let r : Nat → AdjoinRoot P := fun i => if i < n then
    (el t + el (es i) + el (ghash (hs i) a) * el (hs i) ^ (n + 1) + el l * el (hs i)) / el (hs i) else 0
  have hv : Set.InjOn v (Finset.range (n + 1)) := by
    intro i hi j hj h
    rw [Finset.mem_coe, Finset.mem_range] at hi hj
    simp only [v] at h
    split at h <;> split at h
    · next h1 h2 => exact hinj i j h1 h2 (el_inj (by rw [hh i h1, hh j h2]) (hh i h1).le h)
    · next h1 h2 => exact absurd h (el_ne_zero (hh i h1) (hz i h1))
    · next h1 h2 => exact absurd h.symm (el_ne_zero (hh j h2) (hz j h2))
    · omega
  have hcard : (Finset.range (n + 1)).card = n + 1 := Finset.card_range _
  have hdeg := Lagrange.degree_interpolate_lt r hv
  have hev : ∀ i ∈ Finset.range (n + 1), eval (v i) (Lagrange.interpolate (Finset.range (n + 1)) v r) = r i :=
    fun i hi => Lagrange.eval_interpolate_at_node r hv hi
  rw [hcard] at hdeg
  obtain ⟨c, hc, hf⟩ := text_of_poly (Lagrange.interpolate (Finset.range (n + 1)) v r) n
    (by
      rw [natDegree_le_iff_degree_le]
      exact Order.lt_succ_iff.mp (lt_of_lt_of_le hdeg (by norm_cast)))
    (by
      have := hev n (Finset.mem_range.mpr (by omega))
      simp only [v, r, if_neg (Nat.lt_irrefl n)] at this
      rwa [coeff_zero_eq_eval_zero])
  refine ⟨c, hc, fun c' hc' => ?_⟩
  have key : ∀ i, i < n → (xor (ghash (hs i) (a ++ (c' ++ l))) (es i) = t ↔
      (hpoly (fun i => el (block 16 c' i)) n).eval (v i) = r i) := by
    intro i hi
    have hnb : nb (c' ++ l) = n + 1 := by rw [nb, List.length_append]; omega
    have hnc : nb c' = n := by rw [nb]; omega
    have h0 := el_ne_zero (hh i hi) (hz i hi)
    have e : el (xor (ghash (hs i) (a ++ (c' ++ l))) (es i)) = el (ghash (hs i) a) * el (hs i) ^ (n + 1) +
        ((hpoly (fun i => el (block 16 c' i)) n).eval (el (hs i)) * el (hs i) + el l * el (hs i)) + el (es i) := by
      rw [el_xor (by rw [length_ghash, he i hi]), ghash_append (hh i hi) ha, ghash_append (hh i hi) (by omega),
        ghash_block (hh i hi) hl, el_ghash (hh i hi) c', hnb, hnc, show nb l = 1 by rw [nb, hl], pow_one]
    simp only [v, r, if_pos hi]
    rw [eq_div_iff h0]
    constructor
    · intro h
      rw [h] at e
      linear_combination -e - char_two_el (el (es i)) - char_two_el (el (ghash (hs i) a) * el (hs i) ^ (n + 1)) -
        char_two_el (el l * el (hs i))
    · intro h
      refine el_inj (by rw [hxl _ _ (length_ghash _) (he i hi), ht]) (by rw [hxl _ _ (length_ghash _) (he i hi)]) ?_
      rw [e, h]
      linear_combination char_two_el (el (es i)) + char_two_el (el (ghash (hs i) a) * el (hs i) ^ (n + 1)) +
        char_two_el (el l * el (hs i))
  constructor
  · intro h
    refine text_poly_inj hc' hc ?_
    rw [hf]
    refine (Lagrange.eq_interpolate_iff r hv).mp ⟨?_, fun i hi => ?_⟩
    · rw [hcard]
      exact lt_of_le_of_lt degree_le_natDegree (by
        have := natDegree_hpoly (fun i => el (block 16 c' i)) n
        exact_mod_cast Nat.lt_succ_of_le this)
    · rcases Nat.lt_or_ge i n with h1 | h1
      · exact (key i h1).mp (h i h1)
      · simp only [v, r, if_neg (Nat.not_lt.mpr h1)]
        rw [← coeff_zero_eq_eval_zero, coeff_hpoly, if_neg (by omega)]
  · rintro rfl i hi
    rw [key i hi, hf]
    exact hev i (Finset.mem_range.mpr (by omega))

theorem roots_poly (ks : List (List U8)) :
    ((ks.map fun k => X - C (el k)).prod).Monic ∧ ((ks.map fun k => X - C (el k)).prod).natDegree = ks.length := by
  induction ks with
  | nil => exact ⟨monic_one, natDegree_one⟩
  | cons k ks ih =>
    rw [List.map_cons, List.prod_cons]
    refine ⟨(monic_X_sub_C _).mul ih.1, ?_⟩
    rw [(monic_X_sub_C _).natDegree_mul ih.1, natDegree_X_sub_C, ih.2, List.length_cons, Nat.add_comm]

/-- The texts with a common hash under given keys: one block per key is enough, if 0 is one of them. -/
theorem zeros_under {ks : List (List U8)} (hk : ∀ k ∈ ks, k.length = 16) (h0 : List.replicate 16 0 ∈ ks) :
    ∃ m : List U8, m.length = 16 * ks.length ∧ m ≠ List.replicate (16 * ks.length) 0 ∧
      ∀ k ∈ ks, el (ghash k m) = 0 := by
  let f : (AdjoinRoot P)[X] := (ks.map fun k => X - C (el k)).prod
  have hf : ∀ k ∈ ks, f.eval (el k) = 0 := by
    intro k hk
    have : (X - C (el k)) ∣ f := List.dvd_prod (List.mem_map_of_mem hk)
    exact dvd_iff_isRoot.mp this
  obtain ⟨hm, hd⟩ : f.Monic ∧ f.natDegree = ks.length := roots_poly ks
  obtain ⟨m, h1, h2⟩ := text_of_poly f ks.length hd.le (by
    have := hf _ h0
    rwa [el_zero, ← coeff_zero_eq_eval_zero] at this)
  have hnb : nb m = ks.length := by rw [nb]; omega
  refine ⟨m, h1, ?_, fun k hk' => ?_⟩
  · intro hz
    have hpos : 0 < ks.length := List.length_pos_of_mem h0
    have hc : f.coeff ks.length = 1 := by rw [← hd]; exact hm.coeff_natDegree
    rw [← h2, coeff_hpoly, if_pos (by omega), Nat.sub_self, hz, block, Nat.mul_zero, List.drop_zero, List.take_replicate,
      Nat.min_eq_left (by omega), el_zero] at hc
    exact zero_ne_one hc
  · rw [el_ghash (hk k hk'), hnb, h2, hf k hk']

end Hacspec.Universal
