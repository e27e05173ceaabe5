import Verif.Lemmas.AesMasks

/-! # C120: linear equations between bits through AES -/

namespace Hacspec.Props

open Hacspec.Aes Hacspec.Spec Hacspec.Ideal Finset

/-- The bytes on which the bits selected by `u` before the S-box and those selected by `v` after it have the same sum. -/
def sboxAgrees (u v : U8) (x : U8) : Bool := match subByte x with
  | .ok y => odd8 (u &&& x) == odd8 (v &&& y)
  | _ => false

/-- **C120** The S-box: for a mask `u ≠ 0` before it, and any mask after it, between 112 and 144 of the 256 bytes agree, and
exactly 128 if one of the masks is 0. -/
theorem C120_sbox {u v : U8} (hu : u ≠ 0) :
    112 ≤ (univ.filter fun x => sboxAgrees u v x = true).card ∧ (univ.filter fun x => sboxAgrees u v x = true).card ≤ 144 ∧
      (v = 0 → (univ.filter fun x => sboxAgrees u v x = true).card = 128) := by
  have e : walsh u v = 2 * ((univ.filter fun x => sboxAgrees u v x = true).card : Int) - 256 := by
    have h : ∀ x : U8, sg (odd8 (u &&& x) ^^ odd8 (v &&& Spec.Aes.sub x)) = 2 * (if sboxAgrees u v x = true then 1 else 0) - 1 := by
      intro x
      rw [sboxAgrees, subByte_ok]
      simp only
      have hab : ∀ a b : Bool, sg (a ^^ b) = 2 * (if (a == b) = true then 1 else 0) - 1 := by decide
      exact hab _ _
    have hc : Fintype.card U8 = 256 := by decide +kernel
    rw [walsh, Finset.sum_congr rfl fun x _ => h x, Finset.sum_sub_distrib, ← Finset.mul_sum, Finset.sum_boole, Finset.sum_const,
      Finset.card_univ, hc]
    norm_num
  obtain ⟨h1, h2⟩ := walsh_le (v := v) hu
  refine ⟨by omega, by omega, fun hv => ?_⟩
  have := walsh_mismatch (u := u) (v := v) fun h => hu (h.mpr hv)
  omega

/-- **C120** For round keys and a block drawn at random, an equation that relates bits of the first block, of the block after `n`
rounds and of the keys holds with a chance that differs from 1/2 by at most half of `2^-3` for each byte of the masks at the beginning
of the rounds that is not zero. -/
theorem C120_weight (u : Nat → Bytes 16) (n : Nat) :
    |share (fun ω : (Fin n → Bytes 16) × Bytes 16 => LinearHolds aesEnc u ω.1 ω.2) - 1 / 2| ≤
      1 / 2 ^ (3 * ((List.range n).map fun i => weight (u i).1).sum + 1) := by
  have hn : Nonempty (Bytes 16) := ⟨⟨List.replicate 16 0, rfl⟩⟩
  rw [share_mean fun ω : (Fin n → Bytes 16) × Bytes 16 => holds_lineBit u ω.1 ω.2, mean_lineBit, abs_div, Finset.abs_prod]
  have e : ∀ n, ∏ i : Fin n, |mean (roundSign (u i) (u (i + 1)))| ≤ 1 / 2 ^ (3 * ((List.range n).map fun i => weight (u i).1).sum) := by
    intro n
    induction n with
    | zero => simp
    | succ n ih =>
      rw [Fin.prod_univ_castSucc]
      simp only [Fin.val_castSucc, Fin.val_last]
      refine (mul_le_mul ih (mean_round_abs (u n) (u (n + 1))) (abs_nonneg _) (by positivity)).trans (le_of_eq ?_)
      rw [List.range_succ, List.map_append, List.sum_append, List.map_singleton, List.sum_singleton, Nat.mul_add, pow_add, pow_mul 2 3
        (weight _), one_div_pow, one_div_mul_one_div]
      norm_num
  rw [pow_succ, ← one_div_mul_one_div, div_eq_mul_one_div, abs_of_pos (show (0 : ℚ) < 2 by norm_num)]
  exact mul_le_mul_of_nonneg_right (e n) (by norm_num)

/-- **C120** For `4 m` rounds, if one of the masks is not zero: the chance differs from 1/2 by at most `2^-(75 m + 1)`. -/
theorem C120_masks (u : Nat → Bytes 16) (m : Nat) (h : ∃ j ≤ 4 * m, (u j).1 ≠ List.replicate 16 0) :
    |share (fun ω : (Fin (4 * m) → Bytes 16) × Bytes 16 => LinearHolds aesEnc u ω.1 ω.2) - 1 / 2| ≤ 1 / 2 ^ (75 * m + 1) := by
  obtain ⟨j, hj, h⟩ := h
  by_cases hz : ∀ i < 4 * m, Linked (live (u i).1) (live (u (i + 1)).1)
  · have hp : 1 ≤ weight (u j).1 := by
      rw [Nat.one_le_iff_ne_zero]
      intro e
      rw [weight, List.length_eq_zero_iff, List.filter_eq_nil_iff] at e
      refine h (List.eq_replicate_iff.mpr ⟨(u j).2, fun b hb => ?_⟩)
      have := e b hb
      simpa using this
    have hw := linked_weight hz hj hp
    refine (C120_weight u (4 * m)).trans (one_div_le_one_div_of_le (by positivity) (pow_le_pow_right₀ (by norm_num) (by omega)))
  · push Not at hz
    obtain ⟨i, hi, hl⟩ := hz
    have hn : Nonempty (Bytes 16) := ⟨⟨List.replicate 16 0, rfl⟩⟩
    have h0 : mean (roundSign (u i) (u (i + 1))) = 0 := by
      by_contra e
      exact hl (mean_round_linked e)
    rw [share_mean fun ω : (Fin (4 * m) → Bytes 16) × Bytes 16 => holds_lineBit u ω.1 ω.2, mean_lineBit,
      Finset.prod_eq_zero (Finset.mem_univ (⟨i, hi⟩ : Fin (4 * m))) h0, zero_div, abs_zero]
    positivity

/-- **C120** Both bounds for the S-box are attained. -/
theorem C120_sbox_sharp : (univ.filter fun x => sboxAgrees 1 72 x = true).card = 112 ∧
    (univ.filter fun x => sboxAgrees 1 136 x = true).card = 144 := by decide +kernel

/-- The mask with the lowest bit of the first byte, for all rounds. -/
def firstBit : Bytes 16 := ⟨1 :: List.replicate 15 0, rfl⟩

example : |share (fun ω : (Fin 8 → Bytes 16) × Bytes 16 => LinearHolds aesEnc (fun _ => firstBit) ω.1 ω.2) - 1 / 2| ≤ 1 / 2 ^ 151 :=
  C120_masks (fun _ => firstBit) 2 ⟨0, by omega, by decide⟩

end Hacspec.Props
