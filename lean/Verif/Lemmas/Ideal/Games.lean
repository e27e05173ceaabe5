import Mathlib.Algebra.BigOperators.Group.Finset.Sigma
import Mathlib.Data.Fintype.BigOperators
import Mathlib.Algebra.BigOperators.Ring.Finset
import Mathlib.Algebra.Order.BigOperators.Group.Finset
import Verif.Spec.Games

/-! # Attacks: counting, and what is seen before the first forgery -/

namespace Hacspec.Ideal

open Spec Finset

/-! ## Counting -/

section Counting

variable {X K I : Type} [Fintype X] [Fintype K] [Fintype I]

/-- If one coordinate of `x` can be changed freely, counting over `x` is counting over the changes. -/
theorem card_act (h : X → K) (act : X → K → X) (h1 : ∀ x κ, h (act x κ) = κ) (h2 : ∀ x κ κ', act (act x κ) κ' = act x κ')
    (h3 : ∀ x, act x (h x) = x) (P : X → Prop) [DecidablePred P] :
    Fintype.card K * (univ.filter P).card = ∑ x, (univ.filter fun κ => P (act x κ)).card := by
  let e : X × K ≃ X × K :=
    ⟨fun p => (act p.1 p.2, h p.1), fun p => (act p.1 p.2, h p.1), fun p => by simp [h1, h2, h3], fun p => by simp [h1, h2, h3]⟩
  have hs : ∑ p : X × K, (if P (act p.1 p.2) then 1 else 0) = ∑ p : X × K, if P p.1 then 1 else 0 :=
    Fintype.sum_equiv e _ _ fun p => rfl
  have hl : ∑ x, (univ.filter fun κ => P (act x κ)).card = ∑ p : X × K, (if P (act p.1 p.2) then 1 else 0) := by
    rw [Fintype.sum_prod_type]
    exact Finset.sum_congr rfl fun x _ => Finset.card_filter _ _
  rw [hl, hs, Fintype.sum_prod_type, Finset.card_filter, Finset.mul_sum]
  refine Finset.sum_congr rfl fun x _ => ?_
  show _ = ∑ _y : K, if P x then 1 else 0
  rw [Finset.sum_const, Finset.card_univ, nsmul_eq_mul, Nat.cast_id]

open Classical in
/-- The same where the coordinate depends on `x`, but not on itself. -/
theorem card_index (h : I → X → K) (act : I → X → K → X) (h1 : ∀ i x κ, h i (act i x κ) = κ)
    (h2 : ∀ i x κ κ', act i (act i x κ) κ' = act i x κ') (h3 : ∀ i x, act i x (h i x) = x) (P : X → Prop) [DecidablePred P]
    (R : I → X → Prop) (hu : ∀ x i j, R i x → R j x → i = j) (hP : ∀ x, P x → ∃ i, R i x) (hR : ∀ i x κ, R i (act i x κ) → R i x) (B : Nat)
    (hB : ∀ i x, R i x → (univ.filter fun κ => P (act i x κ) ∧ R i (act i x κ)).card ≤ B) :
    Fintype.card K * (univ.filter P).card ≤ B * Fintype.card X := by
  have e1 : (univ.filter P).card ≤ ∑ i, (univ.filter fun x => P x ∧ R i x).card := by
    refine (Finset.card_le_card (t := univ.biUnion fun i => univ.filter fun x => P x ∧ R i x) ?_).trans Finset.card_biUnion_le
    intro x hx
    have hx := (Finset.mem_filter.mp hx).2
    obtain ⟨i, hi⟩ := hP x hx
    exact Finset.mem_biUnion.mpr ⟨i, Finset.mem_univ _, Finset.mem_filter.mpr ⟨Finset.mem_univ _, hx, hi⟩⟩
  have e2 : ∀ i, Fintype.card K * (univ.filter fun x => P x ∧ R i x).card ≤ ∑ x, if R i x then B else 0 := by
    intro i
    rw [card_act (h i) (act i) (h1 i) (h2 i) (h3 i) fun x => P x ∧ R i x]
    refine Finset.sum_le_sum fun x _ => ?_
    by_cases hx : R i x
    · rw [if_pos hx]; exact hB i x hx
    · rw [if_neg hx, Nat.le_zero, Finset.card_eq_zero, Finset.filter_eq_empty_iff]
      exact fun κ _ hκ => hx (hR i x κ hκ.2)
  calc Fintype.card K * (univ.filter P).card
      ≤ Fintype.card K * ∑ i, (univ.filter fun x => P x ∧ R i x).card := Nat.mul_le_mul_left _ e1
    _ = ∑ i, Fintype.card K * (univ.filter fun x => P x ∧ R i x).card := Finset.mul_sum _ _ _
    _ ≤ ∑ i, ∑ x, (if R i x then B else 0) := Finset.sum_le_sum fun i _ => e2 i
    _ = ∑ x, ∑ i, (if R i x then B else 0) := Finset.sum_comm
    _ ≤ ∑ _x : X, B := Finset.sum_le_sum fun x _ => by
        by_cases hx : ∃ i, R i x
        · obtain ⟨i, hi⟩ := hx
          rw [Finset.sum_eq_single i (fun j _ hj => if_neg fun hr => hj (hu x j i hr hi)) (fun hn => absurd (Finset.mem_univ i) hn),
            if_pos hi]
        · rw [Finset.sum_eq_zero fun i _ => if_neg fun hr => hx ⟨i, hr⟩]
          exact Nat.zero_le _
    _ = B * Fintype.card X := by rw [Finset.sum_const, Finset.card_univ, nsmul_eq_mul, Nat.cast_id, Nat.mul_comm]

end Counting

/-! ## Before the first forgery -/

section Blind

variable {Ω : Type} (S : Aead Ω) (A : List Seen → Ask)

/-- Nothing is ever decrypted. -/
def blindAnswer (F : Ω) : Ask → Seen
  | .enc iv aad m => S.answer F (.enc iv aad m)
  | .dec iv aad c t => .dec iv aad c t none
  | .stop => .stopped

/-- What was asked and answered after `k` questions if nothing is decrypted. -/
def blind (F : Ω) : Nat → List Seen
  | 0 => []
  | k + 1 => blind F k ++ [blindAnswer S F (A (blind F k))]

theorem blind_mono {F : Ω} {i k : Nat} (h : i ≤ k) : blind S A F i ⊆ blind S A F k := by
  induction k with
  | zero => rw [Nat.le_zero.mp h]; exact fun x hx => hx
  | succ k ih =>
    rcases Nat.lt_or_eq_of_le h with h | rfl
    · exact fun x hx => List.mem_append_left _ (ih (by omega) hx)
    · exact fun x hx => hx

theorem mem_blind {F : Ω} {i k : Nat} (h : i < k) : blindAnswer S F (A (blind S A F i)) ∈ blind S A F k :=
  blind_mono S A (Nat.succ_le_of_lt h) (by rw [blind]; exact List.mem_append_right _ (List.mem_singleton_self _))

variable {A}

/-- Before a forgery, nothing was decrypted. -/
theorem play_blind {L : Nat} (hA : Proper A L) (hS : ∀ F iv aad c t, blocks aad c ≤ L → ∃ r, S.dec F iv aad c t = .ok r)
    {k : Nat} {F : Ω} (h : ¬ S.Forges A k F) : S.play A F k = blind S A F k := by
  have heq : ∀ j, j ≤ k → S.play A F j = blind S A F j := by
    intro j
    induction j with
    | zero => exact fun _ => rfl
    | succ j ih =>
      intro hj
      rw [Aead.play, blind, ← ih (by omega)]
      congr 2
      have hm : ¬ ∃ iv aad c t p, S.answer F (A (S.play A F j)) = .dec iv aad c t (some p) := fun hx => h ⟨j, by omega, hx⟩
      cases ha : A (S.play A F j) with
      | enc iv aad m => rfl
      | stop => rfl
      | dec iv aad c t =>
        obtain ⟨r, hr⟩ := hS F iv aad c t (hA.decLength _ _ _ _ _ ha)
        rw [ha] at hm
        simp only [Aead.answer, hr, blindAnswer] at hm ⊢
        cases r with
        | none => rfl
        | some p => exact absurd ⟨iv, aad, c, t, p, rfl⟩ hm
  exact heq k (le_refl k)

/-- The first forgery comes after questions that were not decrypted. -/
theorem forges_blind {L : Nat} (hA : Proper A L) (hS : ∀ F iv aad c t, blocks aad c ≤ L → ∃ r, S.dec F iv aad c t = .ok r)
    {q : Nat} {F : Ω} (h : S.Forges A q F) :
    ∃ k, k < q ∧ ∃ iv aad c t p, A (blind S A F k) = .dec iv aad c t ∧ S.dec F iv aad c t = .ok (some p) := by
  classical
  obtain ⟨hk, hf⟩ := Nat.find_spec h
  have hmin : ¬ S.Forges A (Nat.find h) F := by
    rintro ⟨j, hj, hx⟩
    exact Nat.find_min h hj ⟨by omega, hx⟩
  obtain ⟨iv, aad, c, t, p, hf⟩ := hf
  refine ⟨Nat.find h, hk, iv, aad, c, t, p, ?_⟩
  rw [play_blind S hA hS hmin] at hf
  cases ha : A (blind S A F (Nat.find h)) with
  | stop => rw [ha] at hf; exact absurd hf (by simp [Aead.answer])
  | enc iv aad m =>
    rw [ha, Aead.answer] at hf
    split at hf <;> exact absurd hf (by simp)
  | dec iv' aad' c' t' =>
    rw [ha, Aead.answer] at hf
    split at hf
    · rename_i r hr
      simp only [Seen.dec.injEq] at hf
      obtain ⟨rfl, rfl, rfl, rfl, rfl⟩ := hf
      exact ⟨rfl, hr⟩
    · exact absurd hf (by simp)

/-- An encryption seen was asked for. -/
theorem asked {S : Aead Ω} {F : Ω} {iv : Bytes 12} {aad c t : List (BitVec 8)} {k : Nat} (h : Seen.enc iv aad c t ∈ blind S A F k) :
    ∃ j, j < k ∧ ∃ m, A (blind S A F j) = .enc iv aad m := by
  induction k with
  | zero => exact absurd h (by simp [blind])
  | succ k ih =>
    rw [blind, List.mem_append, List.mem_singleton] at h
    rcases h with h | h
    · obtain ⟨j, hj, hm⟩ := ih h
      exact ⟨j, by omega, hm⟩
    · refine ⟨k, by omega, ?_⟩
      cases ha : A (blind S A F k) with
      | dec iv aad c t => rw [ha, blindAnswer] at h; exact absurd h (by simp)
      | stop => rw [ha, blindAnswer] at h; exact absurd h (by simp)
      | enc iv' aad' m' =>
        rw [ha, blindAnswer, Aead.answer] at h
        split at h
        · simp only [Seen.enc.injEq] at h
          obtain ⟨rfl, rfl, -, -⟩ := h
          exact ⟨m', rfl⟩
        · exact absurd h (by simp)

theorem length_blind (F : Ω) (k : Nat) : (blind S A F k).length = k := by
  induction k with
  | zero => rfl
  | succ k ih => rw [blind, List.length_append, ih]; rfl

theorem take_blind {F : Ω} {i k : Nat} (h : i ≤ k) : (blind S A F k).take i = blind S A F i := by
  induction k with
  | zero => rw [Nat.le_zero.mp h]; rfl
  | succ k ih =>
    rcases Nat.lt_or_eq_of_le h with h | rfl
    · rw [blind, List.take_append_of_le_length (by rw [length_blind]; omega), ih (by omega)]
    · rw [List.take_of_length_le (by rw [length_blind])]

end Blind

end Hacspec.Ideal
