import Verif.Lemmas.Ideal.Strategy

/-! # A block cipher with a secret key, beside the block cipher that everybody can ask -/

namespace Hacspec.Ideal

open Spec Finset

variable {K X Q R O : Type}

/-- The key of a question. -/
def keyOf : Dir K X → K
  | .fwd k _ => k
  | .bwd k _ => k

/-- The keys of the questions. -/
def keysAsked (g : Dir K X → X) (f : Q → R) : Prog (Dir K X ⊕ Q) (X ⊕ R) O → List K
  | .ret _ => []
  | .ask (.inl d) k => keyOf d :: keysAsked g f (k (.inl (g d)))
  | .ask (.inr x) k => keysAsked g f (k (.inr (f x)))

theorem length_keysAsked (g : Dir K X → X) (f : Q → R) {p : Prog (Dir K X ⊕ Q) (X ⊕ R) O} {q n : Nat} (hp : p.Counts q n) :
    (keysAsked g f p).length ≤ q := by
  induction p generalizing q n with
  | ret o => exact Nat.zero_le _
  | ask x k ih =>
    cases x with
    | inl d =>
      obtain ⟨q, rfl, hp⟩ := hp
      exact Nat.succ_le_succ (ih _ (hp _))
    | inr x =>
      obtain ⟨n, rfl, hp⟩ := hp
      exact ih _ (hp _)

variable [DecidableEq K]

theorem answer_update (E : K → Equiv.Perm X) {k : K} (π : Equiv.Perm X) {d : Dir K X} (h : k ≠ keyOf d) :
    Dir.answer (Function.update E k π) d = Dir.answer E d := by
  cases d with
  | fwd k' x => rw [Dir.answer, Dir.answer, Function.update_of_ne (show k' ≠ k from Ne.symm h)]
  | bwd k' x => rw [Dir.answer, Dir.answer, Function.update_of_ne (show k' ≠ k from Ne.symm h)]

theorem run_update (E : K → Equiv.Perm X) {k : K} (π : Equiv.Perm X) (f : Q → R) {p : Prog (Dir K X ⊕ Q) (X ⊕ R) O}
    (h : k ∉ keysAsked (Dir.answer E) f p) :
    p.run (sideAnswer (Dir.answer (Function.update E k π)) f) = p.run (sideAnswer (Dir.answer E) f) := by
  induction p with
  | ret o => rfl
  | ask x c ih =>
    cases x with
    | inl d =>
      rw [keysAsked, List.mem_cons, not_or] at h
      rw [Prog.run, Prog.run, sideAnswer, sideAnswer, answer_update E π h.1]
      exact ih _ h.2
    | inr x =>
      rw [keysAsked] at h
      exact ih _ h

/-- Whoever asks the block cipher `q` times can only tell the cipher with a secret key from another permutation if one of the
questions has this key. -/
theorem share_keyed [Fintype K] [Fintype X] [DecidableEq X] (F : Equiv.Perm X → Q → R) {p : Prog (Dir K X ⊕ Q) (X ⊕ R) O}
    {q n : Nat} (hp : p.Counts q n) (acc : O → Prop) :
    share (fun ω : (K → Equiv.Perm X) × K => acc (p.run (sideAnswer (Dir.answer ω.1) (F (ω.1 ω.2))))) ≤
      share (fun ω : (K → Equiv.Perm X) × Equiv.Perm X => acc (p.run (sideAnswer (Dir.answer ω.1) (F ω.2)))) + q / Fintype.card K := by
  classical
  by_cases hK : Nonempty K
  · have hreg := share_regular (C := Equiv.Perm X)
      (fun ω : ((K → Equiv.Perm X) × Equiv.Perm X) × K => (Function.update ω.1.1 ω.2 ω.1.2, ω.2)) (fun ω => ω.1.1 ω.2)
      (by
        rintro ⟨⟨E, π⟩, k⟩ ⟨⟨E', π'⟩, k'⟩ h
        simp only [Prod.mk.injEq] at h
        obtain ⟨⟨h1, rfl⟩, h2⟩ := h
        have hπ : π = π' := by simpa using congrFun h1 k
        have hE : E = E' := by
          funext j
          by_cases hj : j = k
          · rw [hj, h2]
          · have := congrFun h1 j
            rwa [Function.update_of_ne hj, Function.update_of_ne hj] at this
        rw [hπ, hE])
      (by rw [Fintype.card_prod, Fintype.card_prod, Fintype.card_prod]; ring)
      (fun ω : (K → Equiv.Perm X) × K => acc (p.run (sideAnswer (Dir.answer ω.1) (F (ω.1 ω.2)))))
    rw [← hreg]
    have h := share_le_add (Ω := ((K → Equiv.Perm X) × Equiv.Perm X) × K)
      (P := fun ω => acc (p.run (sideAnswer (Dir.answer (Function.update ω.1.1 ω.2 ω.1.2)) (F (Function.update ω.1.1 ω.2 ω.1.2 ω.2)))))
      (Q := fun ω => acc (p.run (sideAnswer (Dir.answer ω.1.1) (F ω.1.2))))
      (R := fun ω => ω.2 ∈ keysAsked (Dir.answer ω.1.1) (F ω.1.2) p) (fun ω hω => by
        by_cases hk : ω.2 ∈ keysAsked (Dir.answer ω.1.1) (F ω.1.2) p
        · exact .inr hk
        · left
          rwa [Function.update_self, run_update _ _ _ hk] at hω)
    refine h.trans (add_le_add (le_of_eq ?_) ?_)
    · exact share_fst (fun ω : (K → Equiv.Perm X) × Equiv.Perm X => acc (p.run (sideAnswer (Dir.answer ω.1) (F ω.2))))
    · refine share_prod_le (by positivity) fun ω => ?_
      refine share_le (c := q) fun s hs => ?_
      refine (Finset.card_le_card (t := (keysAsked (Dir.answer ω.1) (F ω.2) p).toFinset) fun k hk => List.mem_toFinset.mpr (hs k hk)).trans ?_
      exact (List.toFinset_card_le _).trans (length_keysAsked _ _ hp)
  · have : IsEmpty K := not_nonempty_iff.mp hK
    rw [share, Fintype.card_prod, Fintype.card_eq_zero (α := K), Nat.mul_zero, Nat.cast_zero, div_zero, div_zero, add_zero]
    exact share_nonneg _

end Hacspec.Ideal
