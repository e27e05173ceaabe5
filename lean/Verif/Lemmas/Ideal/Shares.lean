import Mathlib.Tactic.FieldSimp
import Mathlib.Tactic.Ring
import Mathlib.Tactic.Positivity
import Mathlib.Tactic.Linarith
import Mathlib.Algebra.Order.BigOperators.Group.Finset
import Mathlib.Algebra.BigOperators.Ring.Finset
import Mathlib.Algebra.BigOperators.Field
import Verif.Spec.Shares

/-! # Shares -/

namespace Hacspec.Ideal

open Spec Finset

section

variable {Ω Ω' A B : Type} [Fintype Ω] [Fintype Ω'] [Fintype A] [Fintype B]

theorem share_nonneg (P : Ω → Prop) : 0 ≤ share P := div_nonneg (Nat.cast_nonneg _) (Nat.cast_nonneg _)

theorem share_mono {P Q : Ω → Prop} (h : ∀ ω, P ω → Q ω) : share P ≤ share Q := by
  classical
  refine div_le_div_of_nonneg_right ?_ (Nat.cast_nonneg _)
  exact Nat.cast_le.mpr (Finset.card_le_card fun ω hω => by
    rw [Finset.mem_filter] at hω ⊢
    exact ⟨hω.1, h ω hω.2⟩)

theorem share_congr {P Q : Ω → Prop} (h : ∀ ω, P ω ↔ Q ω) : share P = share Q := by
  rw [show P = Q from funext fun ω => propext (h ω)]

theorem share_or (P Q : Ω → Prop) : share (fun ω => P ω ∨ Q ω) ≤ share P + share Q := by
  classical
  rw [share, share, share, ← add_div]
  refine div_le_div_of_nonneg_right ?_ (Nat.cast_nonneg _)
  rw [← Nat.cast_add]
  refine Nat.cast_le.mpr (le_trans (Finset.card_le_card ?_) (Finset.card_union_le _ _))
  intro ω hω
  rw [Finset.mem_union, Finset.mem_filter, Finset.mem_filter]
  simp only [Finset.mem_filter, Finset.mem_univ, true_and] at hω
  rcases hω with h | h
  · exact .inl ⟨Finset.mem_univ _, h⟩
  · exact .inr ⟨Finset.mem_univ _, h⟩

theorem share_le_add {P Q R : Ω → Prop} (h : ∀ ω, P ω → Q ω ∨ R ω) : share P ≤ share Q + share R :=
  (share_mono h).trans (share_or Q R)

/-- Few possibilities. -/
theorem share_le {P : Ω → Prop} {c : Nat} (h : ∀ s : Finset Ω, (∀ ω ∈ s, P ω) → s.card ≤ c) : share P ≤ c / Fintype.card Ω := by
  classical
  refine div_le_div_of_nonneg_right (Nat.cast_le.mpr (h _ ?_)) (Nat.cast_nonneg _)
  intro ω hω
  exact (Finset.mem_filter.mp hω).2

/-- One of the elements of a list, each of which is excluded for few possibilities. -/
theorem share_exists_mem {X : Type} (L : List X) {P : X → Ω → Prop} {ε : ℚ} (hε : ∀ x, share (P x) ≤ ε) :
    share (fun ω => ∃ x ∈ L, P x ω) ≤ L.length * ε := by
  induction L with
  | nil =>
    refine (share_le (c := 0) fun s hs => ?_).trans (by simp)
    rw [Nat.le_zero, Finset.card_eq_zero]
    exact Finset.eq_empty_of_forall_notMem fun ω hω => by simpa using hs ω hω
  | cons x L ih =>
    have := share_le_add (P := fun ω => ∃ y ∈ x :: L, P y ω) (Q := P x) (R := fun ω => ∃ y ∈ L, P y ω)
      (fun ω h => by simpa using h)
    have h1 := hε x
    rw [List.length_cons]
    push_cast
    linarith

theorem share_sub (P : Ω → Prop) [Nonempty Ω] : share (fun ω => ¬ P ω) = 1 - share P := by
  classical
  have h : (Fintype.card Ω : ℚ) ≠ 0 := Nat.cast_ne_zero.mpr Fintype.card_ne_zero
  rw [share, share, eq_sub_iff_add_eq, ← add_div, div_eq_one_iff_eq h, ← Nat.cast_add, Nat.cast_inj]
  have := Finset.card_filter_add_card_filter_not (s := (univ : Finset Ω)) (p := P)
  rw [Finset.card_univ] at this
  rw [← this, Nat.add_comm]
  congr!

/-- The mean of shares. -/
theorem share_prod (P : A × B → Prop) : share P = (∑ a, share fun b => P (a, b)) / Fintype.card A := by
  classical
  have e : (univ.filter P).card = ∑ a, (univ.filter fun b => P (a, b)).card := by
    rw [Finset.card_eq_sum_card_fiberwise (f := Prod.fst) (t := univ) fun x _ => Finset.mem_coe.mpr (Finset.mem_univ _)]
    refine Finset.sum_congr rfl fun a _ => ?_
    refine Finset.card_nbij' (fun x => x.2) (fun b => (a, b)) ?_ ?_ ?_ ?_
    · rintro ⟨a', b⟩ h
      simp only [Finset.coe_filter, Finset.mem_filter, Finset.mem_univ, true_and, Set.mem_ofPred_eq] at h ⊢
      rw [← h.2]
      exact h.1
    · intro b h
      simp only [Finset.coe_filter, Finset.mem_filter, Finset.mem_univ, true_and, Set.mem_ofPred_eq, and_true] at h ⊢
      exact h
    · rintro ⟨a', b⟩ h
      simp only [Finset.coe_filter, Finset.mem_filter, Finset.mem_univ, true_and, Set.mem_ofPred_eq] at h
      rw [← h.2]
    · intro b h
      rfl
  simp only [share]
  rw [e, Fintype.card_prod, Nat.cast_sum, Nat.cast_mul, ← Finset.sum_div, div_div, mul_comm]

theorem share_prod_le {P : A × B → Prop} {ε : ℚ} (hε : 0 ≤ ε) (h : ∀ a, share (fun b => P (a, b)) ≤ ε) : share P ≤ ε := by
  rw [share_prod]
  refine div_le_of_le_mul₀ (Nat.cast_nonneg _) hε ?_
  refine (Finset.sum_le_card_nsmul _ _ ε fun a _ => h a).trans ?_
  rw [nsmul_eq_mul, Finset.card_univ, mul_comm]

theorem share_prod_mono {C : Type} [Fintype C] {P : A × B → Prop} {Q : A × C → Prop}
    (h : ∀ a, share (fun b => P (a, b)) ≤ share fun c => Q (a, c)) : share P ≤ share Q := by
  rw [share_prod, share_prod]
  exact div_le_div_of_nonneg_right (Finset.sum_le_sum fun a _ => h a) (Nat.cast_nonneg _)

theorem share_equiv (e : Ω ≃ Ω') (P : Ω' → Prop) : share (fun ω => P (e ω)) = share P := by
  classical
  rw [share, share, Fintype.card_congr e]
  congr 2
  refine Finset.card_nbij' e e.symm ?_ ?_ ?_ ?_
  · intro ω h
    simpa using h
  · intro ω h
    simpa using h
  · intro ω _
    simp
  · intro ω _
    simp

theorem share_const (p : Prop) [Decidable p] [Nonempty Ω] : share (fun _ : Ω => p) = if p then 1 else 0 := by
  classical
  have h : (Fintype.card Ω : ℚ) ≠ 0 := Nat.cast_ne_zero.mpr Fintype.card_ne_zero
  by_cases hp : p
  · simp [share, hp]
  · simp [share, hp]

theorem share_fst [Nonempty B] (P : A → Prop) : share (fun x : A × B => P x.1) = share P := by
  classical
  rw [share_prod]
  simp only [share_const]
  rw [share, Finset.card_filter]
  push_cast
  rfl

theorem share_snd [Nonempty A] (P : B → Prop) : share (fun x : A × B => P x.2) = share P := by
  have h := share_equiv (Equiv.prodComm A B) (fun x : B × A => P x.1)
  rw [share_fst] at h
  exact h

/-- A map under which all have equally many preimages. -/
theorem share_regular {C : Type} [Fintype C] [Nonempty C] (f : Ω → Ω') (g : Ω → C)
    (hinj : Function.Injective fun ω => (f ω, g ω)) (hcard : Fintype.card Ω = Fintype.card Ω' * Fintype.card C) (P : Ω' → Prop) :
    share (fun ω => P (f ω)) = share P := by
  have hb : Function.Bijective fun ω => (f ω, g ω) :=
    (Fintype.bijective_iff_injective_and_card _).mpr ⟨hinj, by rw [Fintype.card_prod]; exact hcard⟩
  have h := share_equiv (Equiv.ofBijective _ hb) (fun x : Ω' × C => P x.1)
  rw [share_fst] at h
  exact h

end

end Hacspec.Ideal
