import Verif.Lemmas.AesTrails
import Verif.Props.Diffusion

/-! # C119: trails of differences through AES -/

namespace Hacspec.Props

open Hacspec.Aes Hacspec.Spec Hacspec.Ideal Finset

/-- **C119** For round keys and a block drawn at random, two blocks follow given differences with a chance of at most `2^-6` for
each byte that differs at the beginning of a round. -/
theorem C119_weight (Δ : Nat → Bytes 16) (n : Nat) :
    share (fun ω : (Fin n → Bytes 16) × Bytes 16 => Follows aesEnc Δ ω.1 ω.2) ≤
      1 / 2 ^ (6 * ((List.range n).map fun i => weight (Δ i).1).sum) := by
  refine (share_follows Δ n).trans (le_of_eq ?_)
  have e : ∀ n, ∏ i : Fin n, (1 / 64 : ℚ) ^ weight (Δ i).1 = 1 / 2 ^ (6 * ((List.range n).map fun i => weight (Δ i).1).sum) := by
    intro n
    induction n with
    | zero => simp
    | succ n ih =>
      rw [Fin.prod_univ_castSucc]
      simp only [Fin.val_castSucc, Fin.val_last]
      rw [ih, List.range_succ, List.map_append, List.sum_append, List.map_singleton, List.sum_singleton, Nat.mul_add, pow_add, pow_mul 2 6
        (weight _), one_div_pow, one_div_mul_one_div]
      norm_num
  exact e n

/-- **C119** A trail of `4 m` rounds that begins with a difference has a chance of at most `2^(-150 m)`. -/
theorem C119_trail (Δ : Nat → Bytes 16) (h0 : (Δ 0).1 ≠ List.replicate 16 0) (m : Nat) :
    share (fun ω : (Fin (4 * m) → Bytes 16) × Bytes 16 => Follows aesEnc Δ ω.1 ω.2) ≤ 1 / 2 ^ (150 * m) := by
  classical
  by_cases hne : ∃ ω : (Fin (4 * m) → Bytes 16) × Bytes 16, Follows aesEnc Δ ω.1 ω.2
  · obtain ⟨⟨k, s⟩, a, b, ha, hb, h⟩ := hne
    simp only at ha hb h
    have hst := fun i hi => follows_states ha hb h i hi
    let t : Bytes 16 := ⟨Spec.xor s.1 (Δ 0).1, length_xor16 s.2 (Δ 0).2⟩
    have hbs : ∀ i, i ≤ 4 * m → b i = (states (allKeys k) t i).1 := by
      intro i hi
      induction i with
      | zero => exact hb
      | succ i ih =>
        have e := (h ⟨i, hi⟩).2.1
        simp only at e
        rw [ih (by omega), aesEnc_round, Except.ok.injEq] at e
        rw [← e, states, ← allKeys_fin k ⟨i, hi⟩]
    have hd : s.1 ≠ t.1 := by
      intro e
      refine h0 (List.ext_getElem (by rw [(Δ 0).2]; rfl) fun i h1 h2 => ?_)
      have hi : i < s.1.length := by rw [s.2, ← (Δ 0).2]; exact h1
      have e' : s.1[i]? = (Spec.xor s.1 (Δ 0).1)[i]? := congrArg (·[i]?) e
      simp only [Spec.xor, List.getElem?_zipWith, List.getElem?_eq_getElem hi, List.getElem?_eq_getElem h1, Option.some.injEq] at e'
      have := congrArg (s.1[i] ^^^ ·) e'
      simp only [← BitVec.xor_assoc, BitVec.xor_self, BitVec.zero_xor] at this
      rw [List.getElem_replicate]
      exact this.symm
    have hw := C95_many_rounds (s := fun i => (states (allKeys k) s i).1) (t := fun i => (states (allKeys k) t i).1)
      (k := fun i => (allKeys k i).1) s.2 t.2 (fun i => (allKeys k i).2) hd (fun i => aesEnc_round _ _) (fun i => aesEnc_round _ _) m
    have hmap : ((List.range (4 * m)).map fun i => Spec.diffBytes (states (allKeys k) s i).1 (states (allKeys k) t i).1) =
        (List.range (4 * m)).map fun i => weight (Δ i).1 := by
      refine List.map_congr_left fun i hi => ?_
      have hi := List.mem_range.mp hi
      obtain ⟨e1, e2⟩ := hst i hi.le
      rw [← hbs i hi.le, e2, e1, diffBytes_weight]
      rw [xor_comm' _ (Δ i).1, xor_comm' _ (Spec.xor _ _), xor_xor ((Δ i).2.trans (states _ s i).2.symm)]
    rw [hmap] at hw
    refine (C119_weight Δ (4 * m)).trans ?_
    refine one_div_le_one_div_of_le (by positivity) (pow_le_pow_right₀ (by norm_num) (by omega))
  · have : ∀ ω : (Fin (4 * m) → Bytes 16) × Bytes 16, Follows aesEnc Δ ω.1 ω.2 → False := fun ω h => hne ⟨ω, h⟩
    refine (share_mono this).trans ?_
    have h0 : share (fun _ : (Fin (4 * m) → Bytes 16) × Bytes 16 => False) = 0 := by simp [share]
    rw [h0]
    positivity

/-- The differences of the two blocks of `C95_sharp`: four bytes, one byte, four bytes and sixteen bytes. -/
def trailStates (s : List U8) : Nat → List U8
  | 0 => s
  | n + 1 => Spec.xor (Spec.Aes.mixColumns (Spec.Aes.shiftRows (Spec.Aes.subBytes (trailStates s n)))) (List.replicate 16 0#8)

theorem length_trailStates {s : List U8} (h : s.length = 16) : ∀ n, (trailStates s n).length = 16
  | 0 => h
  | _ + 1 => length_xor16 (length_mixColumns _) rfl

def trailDelta (n : Nat) : Bytes 16 :=
  ⟨Spec.xor (trailStates diffusionS n) (trailStates diffusionT n), length_xor16 (length_trailStates rfl n) (length_trailStates rfl n)⟩

/-- **C119** Four rounds in which the bound is met by a trail that some keys and some block follow: 25 bytes differ. -/
theorem C119_followed : Follows aesEnc trailDelta (fun _ : Fin 4 => ⟨List.replicate 16 0#8, rfl⟩) ⟨diffusionS, rfl⟩ ∧
    (trailDelta 0).1 ≠ List.replicate 16 0 ∧ ((List.range 4).map fun i => weight (trailDelta i).1).sum = 25 := by
  refine ⟨⟨trailStates diffusionS, trailStates diffusionT, rfl, by decide +kernel, fun i => ⟨?_, ?_, rfl⟩⟩, by decide +kernel,
    by decide +kernel⟩
  · exact aesEnc_ok (length_trailStates rfl _) rfl
  · exact aesEnc_ok (length_trailStates rfl _) rfl

example : share (fun ω : (Fin 4 → Bytes 16) × Bytes 16 => Follows aesEnc trailDelta ω.1 ω.2) ≤ 1 / 2 ^ 150 :=
  C119_trail trailDelta C119_followed.2.1 1

end Hacspec.Props
