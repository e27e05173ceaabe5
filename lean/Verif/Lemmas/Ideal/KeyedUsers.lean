import Verif.Lemmas.Ideal.Keyed
import Verif.Lemmas.Ideal.Users

/-! # A block cipher with the secret keys of several users, beside the block cipher that everybody can ask -/

namespace Hacspec.Ideal

open Spec Finset

variable {K X Q R O : Type} {u : Nat}

open Classical in
/-- Other permutations for some keys. -/
noncomputable def patch (ks : Fin u → K) (πs : Fin u → Equiv.Perm X) (E : K → Equiv.Perm X) (k : K) : Equiv.Perm X :=
  if h : ∃ i, ks i = k then πs h.choose else E k

theorem patch_key {ks : Fin u → K} (h : Function.Injective ks) (πs : Fin u → Equiv.Perm X) (E : K → Equiv.Perm X) (i : Fin u) :
    patch ks πs E (ks i) = πs i := by
  have hi : ∃ j, ks j = ks i := ⟨i, rfl⟩
  rw [patch, dif_pos hi, h hi.choose_spec]

theorem patch_ne {ks : Fin u → K} (πs : Fin u → Equiv.Perm X) (E : K → Equiv.Perm X) {k : K} (h : ∀ i, ks i ≠ k) :
    patch ks πs E k = E k := by
  rw [patch, dif_neg fun ⟨i, e⟩ => h i e]

/-- Exchange the permutations. -/
noncomputable def exchange {ks : Fin u → K} (h : Function.Injective ks) :
    ((K → Equiv.Perm X) × (Fin u → Equiv.Perm X)) ≃ ((K → Equiv.Perm X) × (Fin u → Equiv.Perm X)) :=
  have inv : Function.Involutive fun x : (K → Equiv.Perm X) × (Fin u → Equiv.Perm X) => (patch ks x.2 x.1, fun i => x.1 (ks i)) := by
    rintro ⟨E, πs⟩
    refine Prod.ext (funext fun k => ?_) (funext fun i => ?_)
    · by_cases hk : ∃ i, ks i = k
      · obtain ⟨i, rfl⟩ := hk
        exact patch_key h _ _ i
      · have hk : ∀ i, ks i ≠ k := fun i e => hk ⟨i, e⟩
        show patch ks _ (patch ks πs E) k = E k
        rw [patch_ne _ _ hk, patch_ne _ _ hk]
    · exact patch_key h πs E i
  inv.toPerm

theorem answer_patch {ks : Fin u → K} (πs : Fin u → Equiv.Perm X) (E : K → Equiv.Perm X) {d : Dir K X} (h : ∀ i, ks i ≠ keyOf d) :
    Dir.answer (patch ks πs E) d = Dir.answer E d := by
  cases d with
  | fwd k' x => rw [Dir.answer, Dir.answer, patch_ne _ _ (show ∀ i, ks i ≠ k' from h)]
  | bwd k' x => rw [Dir.answer, Dir.answer, patch_ne _ _ (show ∀ i, ks i ≠ k' from h)]

theorem run_patch {ks : Fin u → K} (πs : Fin u → Equiv.Perm X) (E : K → Equiv.Perm X) (f : Q → R) {p : Prog (Dir K X ⊕ Q) (X ⊕ R) O}
    (h : ∀ i, ks i ∉ keysAsked (Dir.answer E) f p) :
    p.run (sideAnswer (Dir.answer (patch ks πs E)) f) = p.run (sideAnswer (Dir.answer E) f) := by
  induction p with
  | ret o => rfl
  | ask x c ih =>
    cases x with
    | inl d =>
      have h1 : ∀ i, ks i ≠ keyOf d := fun i e => h i (List.mem_cons.mpr (.inl e))
      rw [Prog.run, Prog.run, sideAnswer, sideAnswer, answer_patch πs E h1]
      exact ih _ fun i hi => h i (List.mem_cons_of_mem _ hi)
    | inr x => exact ih _ h

/-- Whoever asks the block cipher `q` times can only tell the cipher with secret keys from other permutations if one of the
questions has one of these keys, or two users have one key. -/
theorem share_keyed_each [Fintype K] [DecidableEq K] [Nonempty K] [Fintype X] [DecidableEq X] (F : (Fin u → Equiv.Perm X) → Q → R)
    {p : Prog (Dir K X ⊕ Q) (X ⊕ R) O} {q n : Nat} (hp : p.Counts q n) (acc : O → Prop) :
    share (fun ω : (K → Equiv.Perm X) × (Fin u → K) => acc (p.run (sideAnswer (Dir.answer ω.1) (F fun i => ω.1 (ω.2 i))))) ≤
      share (fun ω : (K → Equiv.Perm X) × (Fin u → Equiv.Perm X) => acc (p.run (sideAnswer (Dir.answer ω.1) (F ω.2)))) +
        (u * (q / Fintype.card K) + u * (u - 1) / (2 * Fintype.card K)) := by
  classical
  have h1 : share (fun ω : (K → Equiv.Perm X) × (Fin u → K) => acc (p.run (sideAnswer (Dir.answer ω.1) (F fun i => ω.1 (ω.2 i))))) ≤
      share (fun ω : (K → Equiv.Perm X) × (Fin u → K) => Function.Injective ω.2 ∧
        acc (p.run (sideAnswer (Dir.answer ω.1) (F fun i => ω.1 (ω.2 i))))) + u * (u - 1) / (2 * Fintype.card K) := by
    have hC : share (fun ω : (K → Equiv.Perm X) × (Fin u → K) => ¬ Function.Injective ω.2) ≤ u * (u - 1) / (2 * Fintype.card K) := by
      rw [share_snd fun ks : Fin u → K => ¬ Function.Injective ks]
      exact share_not_injective u
    refine (share_le_add fun ω h => ?_).trans (add_le_add_right hC _)
    by_cases hi : Function.Injective ω.2
    · exact .inl ⟨hi, h⟩
    · exact .inr hi
  have h2 : share (fun ω : (K → Equiv.Perm X) × (Fin u → K) => Function.Injective ω.2 ∧
        acc (p.run (sideAnswer (Dir.answer ω.1) (F fun i => ω.1 (ω.2 i))))) ≤
      share (fun ω : (Fin u → K) × ((K → Equiv.Perm X) × (Fin u → Equiv.Perm X)) => Function.Injective ω.1 ∧
        acc (p.run (sideAnswer (Dir.answer (patch ω.1 ω.2.2 ω.2.1)) (F ω.2.2)))) := by
    rw [← share_swap]
    refine share_prod_mono fun ks => ?_
    by_cases hi : Function.Injective ks
    · have := share_equiv (exchange (X := X) hi) fun x : (K → Equiv.Perm X) × (Fin u → Equiv.Perm X) =>
        Function.Injective ks ∧ acc (p.run (sideAnswer (Dir.answer x.1) (F fun i => x.1 (ks i))))
      rw [share_fst fun E : K → Equiv.Perm X => Function.Injective ks ∧ acc (p.run (sideAnswer (Dir.answer E) (F fun i => E (ks i))))] at this
      refine le_of_eq (this.symm.trans (share_congr fun x => ?_))
      have e : (fun i => patch ks x.2 x.1 (ks i)) = x.2 := funext fun i => patch_key hi _ _ i
      show Function.Injective ks ∧ acc (p.run (sideAnswer (Dir.answer (patch ks x.2 x.1)) (F fun i => patch ks x.2 x.1 (ks i)))) ↔ _
      rw [e]
    · rw [share_false fun E h => hi h.1]
      exact share_nonneg _
  have h3 : share (fun ω : (Fin u → K) × ((K → Equiv.Perm X) × (Fin u → Equiv.Perm X)) => Function.Injective ω.1 ∧
        acc (p.run (sideAnswer (Dir.answer (patch ω.1 ω.2.2 ω.2.1)) (F ω.2.2)))) ≤
      share (fun ω : (Fin u → K) × ((K → Equiv.Perm X) × (Fin u → Equiv.Perm X)) => acc (p.run (sideAnswer (Dir.answer ω.2.1) (F ω.2.2)))) +
      share (fun ω : (Fin u → K) × ((K → Equiv.Perm X) × (Fin u → Equiv.Perm X)) =>
        ∃ i, ω.1 i ∈ keysAsked (Dir.answer ω.2.1) (F ω.2.2) p) := by
    refine share_le_add fun ω h => ?_
    by_cases hk : ∃ i, ω.1 i ∈ keysAsked (Dir.answer ω.2.1) (F ω.2.2) p
    · exact .inr hk
    · left
      have h := h.2
      rwa [run_patch _ _ _ fun i hi => hk ⟨i, hi⟩] at h
  have h4 : share (fun ω : (Fin u → K) × ((K → Equiv.Perm X) × (Fin u → Equiv.Perm X)) =>
        ∃ i, ω.1 i ∈ keysAsked (Dir.answer ω.2.1) (F ω.2.2) p) ≤ u * (q / Fintype.card K) := by
    rw [← share_swap fun ω : (Fin u → K) × ((K → Equiv.Perm X) × (Fin u → Equiv.Perm X)) =>
      ∃ i, ω.1 i ∈ keysAsked (Dir.answer ω.2.1) (F ω.2.2) p]
    refine share_prod_le (by positivity) fun ω => ?_
    refine (share_exists_le fun (i : Fin u) (ks : Fin u → K) => ks i ∈ keysAsked (Dir.answer ω.1) (F ω.2) p).trans ?_
    refine (Finset.sum_le_card_nsmul _ _ ((q : ℚ) / (Fintype.card K : ℚ)) fun i _ => ?_).trans ?_
    swap
    · rw [Finset.card_univ, Fintype.card_fin, nsmul_eq_mul]
    rw [share_at i fun k : K => k ∈ keysAsked (Dir.answer ω.1) (F ω.2) p]
    refine share_le (c := q) fun s hs => ?_
    refine (Finset.card_le_card (t := (keysAsked (Dir.answer ω.1) (F ω.2) p).toFinset) fun k hk => List.mem_toFinset.mpr (hs k hk)).trans ?_
    exact (List.toFinset_card_le _).trans (length_keysAsked _ _ hp)
  have h5 : share (fun ω : (Fin u → K) × ((K → Equiv.Perm X) × (Fin u → Equiv.Perm X)) => acc (p.run (sideAnswer (Dir.answer ω.2.1) (F ω.2.2)))) =
      share (fun ω : (K → Equiv.Perm X) × (Fin u → Equiv.Perm X) => acc (p.run (sideAnswer (Dir.answer ω.1) (F ω.2)))) :=
    share_snd (fun ω : (K → Equiv.Perm X) × (Fin u → Equiv.Perm X) => acc (p.run (sideAnswer (Dir.answer ω.1) (F ω.2))))
  linarith

end Hacspec.Ideal
