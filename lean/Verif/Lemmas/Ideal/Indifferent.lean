import Mathlib.Data.Fintype.Pi
import Mathlib.Data.Fin.Tuple.Basic
import Verif.Lemmas.Ideal.Shares
import Verif.Lemmas.Ideal.Tables

/-! # A sponge with a random permutation and a random function with the simulator

What is seen with the simulator is seen as often with a permutation, unless an inner part repeats. -/

namespace Hacspec.Ideal

open Spec Spec.Sponge Finset

section

variable {Ω A B J : Type} [Fintype Ω] [Fintype A] [Fintype B] [Fintype J]

theorem share_false {P : Ω → Prop} (h : ∀ ω, ¬ P ω) : share P = 0 := by
  classical
  rw [share, Finset.filter_false_of_mem fun ω _ => h ω]
  simp

theorem share_split (f : Ω → J) (P : Ω → Prop) : share P = ∑ j, share fun ω => f ω = j ∧ P ω := by
  classical
  simp only [share]
  rw [← Finset.sum_div, ← Nat.cast_sum]
  congr 2
  rw [Finset.card_eq_sum_card_fiberwise (f := f) (t := univ) fun x _ => Finset.mem_coe.mpr (Finset.mem_univ _)]
  refine Finset.sum_congr rfl fun j _ => ?_
  congr 1
  ext ω
  simp only [Finset.mem_filter, Finset.mem_univ, true_and]
  exact and_comm

theorem share_and (P : A → Prop) (Q : B → Prop) : share (fun x : A × B => P x.1 ∧ Q x.2) = share P * share Q := by
  classical
  rw [share_prod]
  have h : ∀ a, share (fun b => P a ∧ Q b) = (if P a then 1 else 0) * share Q := by
    intro a
    by_cases hp : P a
    · rw [if_pos hp, one_mul]
      exact share_congr fun b => ⟨fun h => h.2, fun h => ⟨hp, h⟩⟩
    · rw [if_neg hp, zero_mul]
      exact share_false fun b h => hp h.1
  simp only [h]
  rw [← Finset.sum_mul, mul_div_right_comm]
  congr 1
  rw [share, Finset.card_filter]
  push_cast
  rfl

theorem share_eq (a : A) : share (fun x => x = a) = 1 / Fintype.card A := by
  classical
  rw [share]
  congr 1
  rw [Finset.filter_eq' univ a, if_pos (Finset.mem_univ a), Finset.card_singleton, Nat.cast_one]

end

variable {B X I D R Y Z A O : Type} [DecidableEq I] [DecidableEq X] [Fintype X] [Fintype D] [Fintype R] [Fintype Y] [DecidableEq Y]

/-- The inner part of the answer is new, if the question is. -/
def Clear (S : Sponge B X I D R Y) (T : List (Entry B X)) : Dir Unit X → X → Prop
  | .fwd _ x, r => (∀ e ∈ T, e.x ≠ x) → NewInner S T x r
  | .bwd _ y, r => (∀ e ∈ T, e.y ≠ y) → NewInner S T y r

/-- No inner part repeats. -/
def Good (S : Sponge B X I D R Y) (H : Y → D) (ans : Z → A) : Prog (Dir Unit X ⊕ Z) (X ⊕ A) O → List X → List (Entry B X) → Prop
  | .ret _, _, _ => True
  | .ask (.inl d) k, cs, T => Clear S T d (S.simulate H T (cs.headD S.start) d).1 ∧
    Good S H ans (k (.inl (S.simulate H T (cs.headD S.start) d).1)) cs.tail (S.simulate H T (cs.headD S.start) d).2
  | .ask (.inr z) k, cs, T => Good S H ans (k (.inr (ans z))) cs T

/-- The answers with a permutation. -/
def spongeEv (S : Sponge B X I D R Y) (G : (Y → D) → Z → A) (π : Equiv.Perm X) : Dir Unit X ⊕ Z → X ⊕ A
  | .inl d => .inl (d.answer fun _ => π)
  | .inr z => .inr (G (S.value π) z)

section Claim

variable (S : Sponge B X I D R Y) (G : (Y → D) → Z → A) (acc : O → Prop)

/-- Accepted with the simulator, and no inner part repeats. -/
def IdealEv (p : Prog (Dir Unit X ⊕ Z) (X ⊕ A) O) (T : List (Entry B X)) (H : Y → D) (cs : List X) : Prop :=
  Good S H (G H) p cs T ∧ acc (S.simulated H (G H) p cs T)

/-- Accepted with a permutation that agrees with the table and has the outputs `K`. -/
def RealEv (p : Prog (Dir Unit X ⊕ Z) (X ⊕ A) O) (T : List (Entry B X)) (K : List (Y × D)) (π : Equiv.Perm X) : Prop :=
  (∀ e ∈ T, π e.x = e.y) ∧ (∀ k ∈ K, S.value π k.1 = k.2) ∧ acc (p.run (spongeEv S G π))

/-- One over the share of the answers in the table. -/
noncomputable def weight : List (Entry B X) → ℚ
  | [] => 1
  | e :: T => (if (e.blocks.bind S.point).isSome then Fintype.card R else Fintype.card X) * weight T

/-- What is seen with the simulator is seen as often with a permutation. -/
def Claim (p : Prog (Dir Unit X ⊕ Z) (X ⊕ A) O) (n : Nat) (T : List (Entry B X)) (K : List (Y × D)) : Prop :=
  share (fun ω : (Y → D) × (Fin n → X) => (∀ k ∈ K, ω.1 k.1 = k.2) ∧ IdealEv S G acc p T ω.1 (List.ofFn ω.2)) ≤
    weight S T * share (RealEv S G acc p T K)

theorem weight_nonneg (T : List (Entry B X)) : 0 ≤ weight S T := by
  induction T with
  | nil => exact zero_le_one
  | cons e T ih =>
    rw [weight]
    refine mul_nonneg ?_ ih
    split <;> exact Nat.cast_nonneg _

/-- The first random state apart from the rest. -/
def coinEquiv (Q X : Type) (n : Nat) : X × (Q × (Fin n → X)) ≃ Q × (Fin (n + 1) → X) where
  toFun ω := (ω.2.1, Fin.cons ω.1 ω.2.2)
  invFun ω := (ω.2 0, (ω.1, Fin.tail ω.2))
  left_inv ω := by simp
  right_inv ω := by simp

variable {S G acc}

/-- A question that is answered anew. -/
theorem claim_new (d : Dir Unit X) (k : X ⊕ A → Prog (Dir Unit X ⊕ Z) (X ⊕ A) O) (n : Nat) (T : List (Entry B X)) (K : List (Y × D))
    (inv : (Y → D) → X → X) (ent : X → Entry B X) (Kf : X → List (Y × D)) (Fr : X → Prop) (m : ℚ) (hm : 0 < m)
    (h1 : ∀ H c, S.simulate H T c d = (inv H c, ent (inv H c) :: T)) (h2 : ∀ r, Clear S T d r → Fr r)
    (h3 : ∀ y (Ψ : (Y → D) × (Fin n → X) → Prop),
      share (fun ω : X × ((Y → D) × (Fin n → X)) => inv ω.2.1 ω.1 = y ∧ (∀ k ∈ K, ω.2.1 k.1 = k.2) ∧ Ψ ω.2) ≤
        1 / m * share fun ω : (Y → D) × (Fin n → X) => (∀ k ∈ Kf y, ω.1 k.1 = k.2) ∧ Ψ ω)
    (h4 : ∀ y, weight S (ent y :: T) = m * weight S T)
    (h5 : ∀ (π : Equiv.Perm X) y, π (ent y).x = (ent y).y → d.answer (fun _ => π) = y) (h6 : ∀ y, K ⊆ Kf y)
    (h : ∀ y, Fr y → Claim S G acc (k (.inl y)) n (ent y :: T) (Kf y)) : Claim S G acc (.ask (.inl d) k) (n + 1) T K := by
  rw [Claim, ← share_equiv (coinEquiv (Y → D) X n), share_split (fun ω => inv ω.2.1 ω.1),
    share_split (fun π : Equiv.Perm X => d.answer fun _ => π), Finset.mul_sum]
  refine Finset.sum_le_sum fun y _ => ?_
  by_cases hy : Fr y
  · calc _ ≤ share (fun ω : X × ((Y → D) × (Fin n → X)) => inv ω.2.1 ω.1 = y ∧ (∀ k ∈ K, ω.2.1 k.1 = k.2) ∧
          IdealEv S G acc (k (.inl y)) (ent y :: T) ω.2.1 (List.ofFn ω.2.2)) := by
          refine share_mono fun ω hω => ?_
          obtain ⟨e, hK, hg, ha⟩ := hω
          refine ⟨e, hK, ?_⟩
          simp only [coinEquiv, Equiv.coe_fn_mk] at hg ha
          rw [List.ofFn_cons] at hg ha
          rw [Good, List.headD_cons, List.tail_cons, h1, e] at hg
          rw [simulated, List.headD_cons, List.tail_cons, h1, e] at ha
          exact ⟨hg.2, ha⟩
      _ ≤ 1 / m * share (fun ω : (Y → D) × (Fin n → X) => (∀ k ∈ Kf y, ω.1 k.1 = k.2) ∧
          IdealEv S G acc (k (.inl y)) (ent y :: T) ω.1 (List.ofFn ω.2)) :=
          h3 y fun ω => IdealEv S G acc (k (.inl y)) (ent y :: T) ω.1 (List.ofFn ω.2)
      _ ≤ 1 / m * (weight S (ent y :: T) * share (RealEv S G acc (k (.inl y)) (ent y :: T) (Kf y))) :=
          mul_le_mul_of_nonneg_left (h y hy) (by positivity)
      _ = weight S T * share (RealEv S G acc (k (.inl y)) (ent y :: T) (Kf y)) := by
          rw [h4]
          field_simp
      _ ≤ _ := by
          refine mul_le_mul_of_nonneg_left (share_mono fun π hπ => ?_) (weight_nonneg S T)
          have ha := h5 π y (hπ.1 _ (List.mem_cons_self ..))
          refine ⟨ha, fun e he => hπ.1 e (List.mem_cons_of_mem _ he), fun k hk => hπ.2.1 k (h6 y hk), ?_⟩
          have h := hπ.2.2
          rw [Prog.run, spongeEv, ha]
          exact h
  · refine (share_false fun ω hω => hy ?_).le.trans (mul_nonneg (weight_nonneg S T) (share_nonneg _))
    obtain ⟨e, -, hg, -⟩ := hω
    simp only [coinEquiv, Equiv.coe_fn_mk] at hg
    rw [List.ofFn_cons, Good, List.headD_cons, h1, e] at hg
    exact h2 y hg.1

/-- A question whose answer is in the table. -/
theorem claim_old (d : Dir Unit X) (k : X ⊕ A → Prog (Dir Unit X ⊕ Z) (X ⊕ A) O) (n : Nat) (T : List (Entry B X)) (K : List (Y × D))
    [Nonempty X] (y : X) (h1 : ∀ H c, S.simulate H T c d = (y, T))
    (h5 : ∀ π : Equiv.Perm X, (∀ e ∈ T, π e.x = e.y) → d.answer (fun _ => π) = y)
    (h : Claim S G acc (k (.inl y)) n T K) : Claim S G acc (.ask (.inl d) k) (n + 1) T K := by
  rw [Claim, ← share_equiv (coinEquiv (Y → D) X n)]
  calc _ ≤ share (fun ω : X × ((Y → D) × (Fin n → X)) => (∀ k ∈ K, ω.2.1 k.1 = k.2) ∧
        IdealEv S G acc (k (.inl y)) T ω.2.1 (List.ofFn ω.2.2)) := by
        refine share_mono fun ω hω => ?_
        obtain ⟨hK, hg, ha⟩ := hω
        refine ⟨hK, ?_⟩
        simp only [coinEquiv, Equiv.coe_fn_mk] at hg ha
        rw [List.ofFn_cons] at hg ha
        rw [Good, List.headD_cons, List.tail_cons, h1] at hg
        rw [simulated, List.headD_cons, List.tail_cons, h1] at ha
        exact ⟨hg.2, ha⟩
    _ = share (fun ω : (Y → D) × (Fin n → X) => (∀ k ∈ K, ω.1 k.1 = k.2) ∧ IdealEv S G acc (k (.inl y)) T ω.1 (List.ofFn ω.2)) :=
        share_snd (fun ω : (Y → D) × (Fin n → X) => (∀ k ∈ K, ω.1 k.1 = k.2) ∧ IdealEv S G acc (k (.inl y)) T ω.1 (List.ofFn ω.2))
    _ ≤ _ := h
    _ ≤ _ := by
        refine mul_le_mul_of_nonneg_left (share_mono fun π hπ => ⟨hπ.1, hπ.2.1, ?_⟩) (weight_nonneg S T)
        rw [Prog.run, spongeEv, h5 π hπ.1]
        exact hπ.2.2

/-- One value of the random function after the other. -/
theorem claim_value (y : Y) {p : Prog (Dir Unit X ⊕ Z) (X ⊕ A) O} {n : Nat} {T : List (Entry B X)} {K : List (Y × D)}
    (h : ∀ d, Claim S G acc p n T ((y, d) :: K)) : Claim S G acc p n T K := by
  rw [Claim, share_split (fun ω => ω.1 y), share_split (fun π : Equiv.Perm X => S.value π y), Finset.mul_sum]
  refine Finset.sum_le_sum fun d _ => ?_
  refine le_trans (share_mono fun ω hω => ?_) ((h d).trans (mul_le_mul_of_nonneg_left (share_mono fun π hπ => ?_) (weight_nonneg S T)))
  · refine ⟨fun k hk => ?_, hω.2.2⟩
    rcases List.mem_cons.mp hk with rfl | hk
    · exact hω.1
    · exact hω.2.1 k hk
  · exact ⟨hπ.2.1 _ (List.mem_cons_self ..), hπ.1, fun k hk => hπ.2.1 k (List.mem_cons_of_mem _ hk), hπ.2.2⟩

theorem claim_values (ys : List Y) {p : Prog (Dir Unit X ⊕ Z) (X ⊕ A) O} {n : Nat} {T : List (Entry B X)} {K : List (Y × D)}
    (h : ∀ K', K ⊆ K' → (∀ k ∈ K', k ∈ K ∨ k.1 ∈ ys) → (∀ y ∈ ys, ∃ d, (y, d) ∈ K') → Claim S G acc p n T K') :
    Claim S G acc p n T K := by
  induction ys generalizing K with
  | nil => exact h K (List.Subset.refl K) (fun k hk => .inl hk) fun y hy => absurd hy List.not_mem_nil
  | cons y ys ih =>
    refine claim_value y fun d => ih fun K' h1 h2 h3 => h K' ?_ ?_ ?_
    · exact fun k hk => h1 (List.mem_cons_of_mem _ hk)
    · intro k hk
      rcases h2 k hk with h2 | h2
      · rcases List.mem_cons.mp h2 with rfl | h2
        · exact .inr (List.mem_cons_self ..)
        · exact .inl h2
      · exact .inr (List.mem_cons_of_mem _ h2)
    · intro y' hy'
      rcases List.mem_cons.mp hy' with rfl | hy'
      · exact ⟨d, h1 (List.mem_cons_self ..)⟩
      · exact h3 y' hy'

/-- A question to the sponge. -/
theorem claim_ask (z : Z) (ys : List Y) (hG : ∀ H H' : Y → D, (∀ y ∈ ys, H y = H' y) → G H z = G H' z)
    (k : X ⊕ A → Prog (Dir Unit X ⊕ Z) (X ⊕ A) O) (n : Nat) (T : List (Entry B X)) (K : List (Y × D))
    (h : ∀ K' a, K ⊆ K' → (∀ k ∈ K', k ∈ K ∨ k.1 ∈ ys) → Claim S G acc (k (.inr a)) n T K') :
    Claim S G acc (.ask (.inr z) k) n T K := by
  refine claim_values ys fun K' h1 h2 h3 => ?_
  by_cases hH : ∃ H₀ : Y → D, ∀ k ∈ K', H₀ k.1 = k.2
  · obtain ⟨H₀, hH₀⟩ := hH
    have hval : ∀ H : Y → D, (∀ k ∈ K', H k.1 = k.2) → G H z = G H₀ z := by
      intro H hH
      refine hG _ _ fun y hy => ?_
      obtain ⟨d, hd⟩ := h3 y hy
      rw [hH _ hd, hH₀ _ hd]
    refine le_trans (share_mono fun ω hω => ?_) ((h K' (G H₀ z) h1 h2).trans
      (mul_le_mul_of_nonneg_left (share_mono fun π hπ => ?_) (weight_nonneg S T)))
    · obtain ⟨hK, hg, ha⟩ := hω
      rw [Good, hval ω.1 hK] at hg
      rw [simulated, hval ω.1 hK] at ha
      exact ⟨hK, hg, ha⟩
    · refine ⟨hπ.1, hπ.2.1, ?_⟩
      rw [Prog.run, spongeEv, hval _ hπ.2.1]
      exact hπ.2.2
  · refine (share_false fun ω hω => hH ⟨ω.1, hω.1⟩).le.trans (mul_nonneg (weight_nonneg S T) (share_nonneg _))

end Claim

end Hacspec.Ideal
