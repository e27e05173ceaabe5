import Mathlib.Algebra.Polynomial.Roots
import Mathlib.Algebra.Polynomial.BigOperators
import Verif.Lemmas.Gf128Field
import Verif.Lemmas.Poly1305
import Verif.Lemmas.Primes

/-! # Polynomial hashing over a field -/

namespace Hacspec.Universal

open Polynomial Spec

section field
variable {F : Type} [Field F]

/-- `B_0 X^n + B_1 X^(n-1) + ... + B_(n-1) X` -/
noncomputable def hpoly (B : Nat → F) (n : Nat) : F[X] := ∑ i ∈ Finset.range n, C (B i) * X ^ (n - i)

theorem eval_hpoly (B : Nat → F) (n : Nat) (x : F) : (hpoly B n).eval x = ∑ i ∈ Finset.range n, B i * x ^ (n - i) := by
  rw [hpoly, eval_finset_sum]
  apply Finset.sum_congr rfl
  intro i _
  rw [eval_mul, eval_C, eval_pow, eval_X]

theorem coeff_hpoly (B : Nat → F) (n j : Nat) : (hpoly B n).coeff j = if 1 ≤ j ∧ j ≤ n then B (n - j) else 0 := by
  rw [hpoly, finset_sum_coeff]
  split
  · next h =>
    rw [Finset.sum_eq_single (n - j)]
    · rw [coeff_C_mul_X_pow, if_pos (by omega)]
    · intro i hi hne
      rw [Finset.mem_range] at hi
      rw [coeff_C_mul_X_pow, if_neg (by omega)]
    · intro hi
      exact absurd (Finset.mem_range.mpr (by omega)) hi
  · next h =>
    apply Finset.sum_eq_zero
    intro i hi
    rw [Finset.mem_range] at hi
    rw [coeff_C_mul_X_pow, if_neg (by omega)]

theorem natDegree_hpoly (B : Nat → F) (n : Nat) : (hpoly B n).natDegree ≤ n := by
  rw [natDegree_le_iff_coeff_eq_zero]
  intro j hj
  rw [coeff_hpoly, if_neg (by omega)]

/-- The polynomial whose roots are the keys under which two texts have hashes with the difference `d`. -/
noncomputable def dpoly (B B' : Nat → F) (n n' : Nat) (d : F) : F[X] := hpoly B n - hpoly B' n' - C d

theorem natDegree_dpoly (B B' : Nat → F) (n n' : Nat) (d : F) : (dpoly B B' n n' d).natDegree ≤ max n n' := by
  rw [dpoly]
  refine (natDegree_sub_le _ _).trans (max_le ((natDegree_sub_le _ _).trans ?_) ?_)
  · exact max_le_max (natDegree_hpoly _ _) (natDegree_hpoly _ _)
  · rw [natDegree_C]; omega

theorem dpoly_ne {B B' : Nat → F} {n n' : Nat} (d : F) {j : Nat} (hj : 1 ≤ j)
    (h : (hpoly B n).coeff j ≠ (hpoly B' n').coeff j) : dpoly B B' n n' d ≠ 0 := by
  intro h0
  have := congrArg (fun p => coeff p j) h0
  simp only [dpoly, coeff_sub, coeff_zero, coeff_C, if_neg (show j ≠ 0 by omega), sub_zero] at this
  exact h (sub_eq_zero.mp this)

theorem roots_bound {α : Type} {f : F[X]} (hf : f ≠ 0) {N : Nat} (hN : f.natDegree ≤ N) (g : α → F) (ks : List α)
    (hnd : (ks.map g).Nodup) (hr : ∀ k ∈ ks, f.eval (g k) = 0) : ks.length ≤ N := by
  classical
  have h1 : (ks.map g).toFinset.card = ks.length := by
    rw [List.toFinset_card_of_nodup hnd, List.length_map]
  rw [← h1]
  refine (card_le_degree_of_subset_roots ?_).trans hN
  intro x hx
  rw [Finset.mem_val, List.mem_toFinset, List.mem_map] at hx
  obtain ⟨k, hk, rfl⟩ := hx
  rw [mem_roots hf]
  exact hr k hk

end field

/-! ## Blocks of a text -/

theorem getD_block (n : Nat) (hn : 0 < n) (m : List U8) (j : Nat) : (block n m (j / n)).getD (j % n) 0 = m.getD j 0 := by
  have := Nat.mod_lt j hn
  rw [block, List.getD_eq_getElem?_getD, List.getD_eq_getElem?_getD, List.getElem?_take_of_lt this, List.getElem?_drop,
    Nat.div_add_mod]

theorem exists_block_ne {m m' : List U8} (n : Nat) (hn : 0 < n) (hl : m.length = m'.length) (hne : m ≠ m') :
    ∃ i, i < (m.length + (n - 1)) / n ∧ block n m i ≠ block n m' i := by
  by_contra h
  push Not at h
  apply hne
  apply List.ext_getElem hl
  intro j h1 h2
  have hj : j / n < (m.length + (n - 1)) / n := by
    rw [Nat.div_lt_iff_lt_mul hn]
    have h3 := Nat.div_add_mod (m.length + (n - 1)) n
    have h4 := Nat.mod_lt (m.length + (n - 1)) hn
    rw [Nat.mul_comm] at h3
    omega
  have h3 := h _ hj
  have h4 := congrArg (fun l => List.getD l (j % n) 0) h3
  simp only [getD_block n hn] at h4
  simpa [List.getD_eq_getElem?_getD, List.getElem?_eq_getElem h1, List.getElem?_eq_getElem h2] using h4

/-! ## GHASH -/

section ghash
open Gf128 Spec.Gcm

instance factP : Fact (Irreducible P) := ⟨P_irreducible⟩

/-- A block as an element of the field. -/
noncomputable def el (b : List U8) : AdjoinRoot P := φ (blockPoly b)

theorem el_inj {a b : List U8} (hl : a.length = b.length) (h16 : a.length ≤ 16) (h : el a = el b) : a = b := by
  have ha : (a ++ List.replicate (16 - a.length) 0).length = 16 := by
    rw [List.length_append, List.length_replicate]; omega
  have hb : (b ++ List.replicate (16 - b.length) 0).length = 16 := by
    rw [List.length_append, List.length_replicate]; omega
  rw [el, el, ← blockPoly_pad a (16 - a.length), ← blockPoly_pad b (16 - b.length), ← toPoly_wordOfBe ha,
    ← toPoly_wordOfBe hb] at h
  have h2 := φ_inj h
  have h3 := congrArg SecretInt.beOfWord h2
  rw [be_wordOfBe ha, be_wordOfBe hb] at h3
  exact (List.append_inj h3 hl).1

theorem el_xor {a b : List U8} (hl : a.length = b.length) : el (xor a b) = el a + el b := by
  have : blockPoly (xor a b) = blockPoly a + blockPoly b := by
    have := sumPoly_xor (bitAt a) (bitAt b)
    rw [sumPoly, sumPoly, sumPoly] at this
    rw [blockPoly, blockPoly, blockPoly, ← this]
    apply Finset.sum_congr rfl
    intro i _
    have : bitAt (xor a b) i = (bitAt a i ^^ bitAt b i) := by
      rw [bitAt, bitAt, bitAt, ← BitVec.getLsbD_xor]
      refine congrArg (fun v => BitVec.getLsbD v _) ?_
      rw [Spec.xor, List.getD_eq_getElem?_getD, List.getD_eq_getElem?_getD, List.getD_eq_getElem?_getD]
      by_cases h : i / 8 < a.length
      · rw [List.getElem?_eq_getElem (by rw [List.length_zipWith]; omega), List.getElem?_eq_getElem h,
          List.getElem?_eq_getElem (by omega)]
        simp
      · rw [List.getElem?_eq_none (by rw [List.length_zipWith]; omega), List.getElem?_eq_none (by omega),
          List.getElem?_eq_none (by omega)]
        rfl
    rw [this]
  rw [el, this, map_add]; rfl

/-- The number of blocks. -/
abbrev nb (m : List U8) : Nat := (m.length + 15) / 16

theorem el_ghash {k : List U8} (hk : k.length = 16) (m : List U8) :
    el (ghash k m) = (hpoly (fun i => el (block 16 m i)) (nb m)).eval (el k) := by
  rw [eval_hpoly, ← polyBlock_acc hk, el, blockPoly_be, φ_acc, toPoly_wordOfBe hk]
  rfl

theorem ghash_bound {m m' δ : List U8} {j : Nat} (hj : 1 ≤ j)
    (hne : (hpoly (fun i => el (block 16 m i)) (nb m)).coeff j ≠ (hpoly (fun i => el (block 16 m' i)) (nb m')).coeff j)
    (ks : List (List U8)) (hnd : ks.Nodup)
    (hks : ∀ k ∈ ks, k.length = 16 ∧ xor (ghash k m) (ghash k m') = δ) : ks.length ≤ max (nb m) (nb m') := by
  refine roots_bound (dpoly_ne (el δ) hj hne) (natDegree_dpoly _ _ _ _ _) el ks ?_ ?_
  · refine List.Nodup.map_on ?_ hnd
    intro a ha b hb h
    exact el_inj (by rw [(hks a ha).1, (hks b hb).1]) (hks a ha).1.le h
  · intro k hk
    obtain ⟨h1, h2⟩ := hks k hk
    rw [dpoly, eval_sub, eval_sub, eval_C, ← el_ghash h1, ← el_ghash h1, ← h2,
      el_xor (by rw [length_ghash, length_ghash])]
    have hc : ∀ x : AdjoinRoot P, x + x = 0 := by
      intro x
      obtain ⟨p, rfl⟩ := AdjoinRoot.mk_surjective x
      change φ p + φ p = 0
      rw [← map_add, add_self, map_zero]
    have := hc (el (ghash k m'))
    linear_combination -this

end ghash

/-! ## Poly1305 -/

section poly1305
open Poly1305 (p acc)

instance factPrime1305 : Fact p.Prime := ⟨Primes.prime_1305⟩

/-- A block with its marker byte as an element of the field. -/
noncomputable def pel (m : List U8) (i : Nat) : ZMod p := (leVal (block 16 m i ++ [1]) : Nat)

theorem foldl_acc (r : Nat) (m : List U8) (n : Nat) :
    (((List.range n).foldl (fun a i => (a + leVal (block 16 m i ++ [1])) * r % p) 0 : Nat) : ZMod p) =
      (hpoly (pel m) n).eval (r : ZMod p) := by
  rw [eval_hpoly]
  induction n with
  | zero => simp
  | succ n ih =>
    rw [List.range_succ, List.foldl_append, List.foldl_cons, List.foldl_nil, ZMod.natCast_mod, Nat.cast_mul, Nat.cast_add,
      ih, Finset.sum_range_succ, add_mul, Finset.sum_mul]
    refine congrArg₂ (· + ·) ?_ ?_
    · apply Finset.sum_congr rfl
      intro i hi
      rw [Finset.mem_range] at hi
      rw [show n + 1 - i = (n - i) + 1 by omega, pow_succ, mul_assoc]
    · rw [show n + 1 - n = 1 by omega, pow_one]; rfl

theorem cast_acc (r : Nat) (m : List U8) : ((acc r m : Nat) : ZMod p) = (hpoly (pel m) (nb m)).eval (r : ZMod p) :=
  foldl_acc r m _

theorem leVal_marked_lt {b : List U8} (h : b.length ≤ 16) : leVal (b ++ [1]) < p := by
  have h1 := leVal_lt (b ++ [1])
  have h2 : 256 ^ (b ++ [1]).length ≤ 256 ^ 17 := Nat.pow_le_pow_right (by norm_num) (by simp; omega)
  have h3 : leVal (b ++ [1]) = leVal b + 256 ^ b.length * 1 := leVal_append b [1]
  have h4 := leVal_lt b
  have h5 : 256 ^ b.length ≤ 256 ^ 16 := Nat.pow_le_pow_right (by norm_num) h
  have h6 : 2 * 256 ^ 16 < p := by decide +kernel
  omega

theorem leVal_inj {a b : List U8} (hl : a.length = b.length) (h : leVal a = leVal b) : a = b := by
  induction a generalizing b with
  | nil => cases b with
    | nil => rfl
    | cons => simp at hl
  | cons x a ih => cases b with
    | nil => simp at hl
    | cons y b =>
      have e : ∀ (z : U8) (c : List U8), leVal (z :: c) = z.toNat + 256 * leVal c := fun z c => by simp [leVal]
      rw [e, e] at h
      have hx := x.isLt
      have hy := y.isLt
      have h1 : x = y := BitVec.eq_of_toNat_eq (by omega)
      rw [h1, ih (by simpa using hl) (by omega)]

theorem leVal_marked_inj {a b : List U8} (h : leVal (a ++ [1]) = leVal (b ++ [1])) : a = b := by
  have e : ∀ c : List U8, leVal (c ++ [1]) = leVal c + 256 ^ c.length * 1 := fun c => leVal_append c [1]
  have ha := leVal_lt a
  have hb := leVal_lt b
  have hl : a.length = b.length := by
    rw [e, e] at h
    rcases Nat.lt_trichotomy a.length b.length with hlt | heq | hlt
    · have := Nat.pow_le_pow_right (show 0 < 256 by norm_num) (Nat.succ_le_of_lt hlt)
      rw [pow_succ] at this
      omega
    · exact heq
    · have := Nat.pow_le_pow_right (show 0 < 256 by norm_num) (Nat.succ_le_of_lt hlt)
      rw [pow_succ] at this
      omega
  have hv : leVal a = leVal b := by
    rw [e, e, hl] at h
    omega
  exact leVal_inj hl hv

theorem length_block_le (m : List U8) (i : Nat) : (block 16 m i).length ≤ 16 := by
  rw [block, List.length_take]; omega

theorem cast_inj_p {a b : Nat} (ha : a < p) (hb : b < p) (h : (a : ZMod p) = b) : a = b := by
  have := (ZMod.natCast_eq_natCast_iff' a b p).mp h
  rwa [Nat.mod_eq_of_lt ha, Nat.mod_eq_of_lt hb] at this

theorem pel_ne_zero (m : List U8) (i : Nat) : pel m i ≠ 0 := by
  intro h
  have h0 : leVal (block 16 m i ++ [1]) = 0 :=
    cast_inj_p (leVal_marked_lt (length_block_le m i)) (by decide +kernel) (by rw [Nat.cast_zero]; exact h)
  rw [show leVal (block 16 m i ++ [1]) = leVal (block 16 m i) + 256 ^ (block 16 m i).length * 1 from
    leVal_append _ [1]] at h0
  have := Nat.pow_pos (n := (block 16 m i).length) (show 0 < 256 by norm_num)
  omega

/-- Different messages have different polynomials, in a coefficient other than the constant one. -/
theorem pel_ne {m m' : List U8} (hne : m ≠ m') :
    ∃ j, 1 ≤ j ∧ (hpoly (pel m) (nb m)).coeff j ≠ (hpoly (pel m') (nb m')).coeff j := by
  by_contra hc
  push Not at hc
  have hn : nb m = nb m' := by
    rcases Nat.lt_trichotomy (nb m) (nb m') with h | h | h
    · have := hc (nb m') (by omega)
      rw [coeff_hpoly, coeff_hpoly, if_neg (by omega), if_pos (by omega)] at this
      exact absurd this.symm (pel_ne_zero _ _)
    · exact h
    · have := hc (nb m) (by omega)
      rw [coeff_hpoly, coeff_hpoly, if_pos (by omega), if_neg (by omega)] at this
      exact absurd this (pel_ne_zero _ _)
  have hb : ∀ i, i < nb m → block 16 m i = block 16 m' i := by
    intro i hi
    have := hc (nb m - i) (by omega)
    rw [coeff_hpoly, coeff_hpoly, if_pos (by omega), if_pos (by omega), ← hn, show nb m - (nb m - i) = i by omega] at this
    exact leVal_marked_inj (cast_inj_p (leVal_marked_lt (length_block_le m i)) (leVal_marked_lt (length_block_le m' i)) this)
  have hl : m.length = m'.length := by
    by_cases h0 : nb m = 0
    · have := hn ▸ h0
      simp only [nb] at this h0
      omega
    · have h1 := congrArg List.length (hb (nb m - 1) (by omega))
      rw [block, block, List.length_take, List.length_take, List.length_drop, List.length_drop] at h1
      simp only [nb] at h1 h0 hn
      omega
  obtain ⟨i, h1, h2⟩ := exists_block_ne 16 (by norm_num) hl hne
  exact h2 (hb i h1)

end poly1305

end Hacspec.Universal
