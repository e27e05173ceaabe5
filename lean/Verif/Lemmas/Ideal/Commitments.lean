import Verif.Lemmas.Ideal.Extract
import Verif.Lemmas.Ideal.Hmac
import Verif.Lemmas.Ideal.Sessions
import Verif.Spec.Commitments

/-! # Programs that attack commitments -/

namespace Hacspec.Ideal

open Spec Finset

section

variable {D X Y O W Z : Type}

/-- Other questions of the second kind. -/
def reask (f : W → Z) : Prog (D ⊕ W) X O → Prog (D ⊕ Z) X O
  | .ret o => .ret o
  | .ask (.inl d) k => .ask (.inl d) fun r => reask f (k r)
  | .ask (.inr w) k => .ask (.inr (f w)) fun r => reask f (k r)

theorem run_reask (f : W → Z) (e : D → X) (y : Z → Y) (p : Prog (D ⊕ W) (X ⊕ Y) O) :
    (reask f p).run (sideAnswer e y) = p.run (sideAnswer e fun w => y (f w)) := by
  induction p with
  | ret o => rfl
  | ask x k ih => cases x <;> exact ih _

theorem reask_counts (f : W → Z) {p : Prog (D ⊕ W) X O} {q n : Nat} (hp : p.Counts q n) : (reask f p).Counts q n := by
  induction p generalizing q n with
  | ret o => trivial
  | ask x k ih =>
    cases x with
    | inl d =>
      obtain ⟨c, rfl, h⟩ := hp
      exact ⟨c, rfl, fun r => ih r (h r)⟩
    | inr w =>
      obtain ⟨c, rfl, h⟩ := hp
      exact ⟨c, rfl, fun r => ih r (h r)⟩

theorem run_quiet (e : D → X) (y y' : W → Y) {p : Prog (D ⊕ W) (X ⊕ Y) O} {q : Nat} (hp : p.Counts q 0) :
    p.run (sideAnswer e y) = p.run (sideAnswer e y') := by
  induction p generalizing q with
  | ret o => rfl
  | ask x k ih =>
    cases x with
    | inl d =>
      obtain ⟨c, rfl, h⟩ := hp
      exact ih _ (h _)
    | inr w =>
      obtain ⟨c, h, -⟩ := hp
      cases h

/-- One value of a random function is random, wherever it is taken. -/
theorem share_one_question {A : Type} [Fintype Z] [DecidableEq Z] [Fintype A] [Nonempty A] (e : D → X) (f g : W → Z) (c : A → Y) {p : Prog (D ⊕ W) (X ⊕ Y) O} {q : Nat}
    (hp : p.Counts q 1) (acc : O → Prop) :
    share (fun F : Z → A => acc (p.run (sideAnswer e fun w => c (F (f w))))) =
      share (fun F : Z → A => acc (p.run (sideAnswer e fun w => c (F (g w))))) := by
  induction p generalizing q with
  | ret o => rfl
  | ask x k ih =>
    cases x with
    | inl d =>
      obtain ⟨c, rfl, h⟩ := hp
      exact ih _ (h _)
    | inr w =>
      obtain ⟨n, hn, h⟩ := hp
      obtain rfl : n = 0 := by omega
      have key : ∀ f : W → Z, share (fun F : Z → A => acc ((Prog.ask (.inr w) k).run (sideAnswer e fun w => c (F (f w))))) =
          share (fun F : Unit → A => acc ((k (.inr (c (F ())))).run (sideAnswer e fun _ => c (F ())))) := by
        intro f
        rw [← share_points (z := fun _ : Unit => f w) (fun _ _ _ => rfl) fun F : Unit → A => acc ((k (.inr (c (F ())))).run (sideAnswer e fun _ => c (F ())))]
        refine share_congr fun F => ?_
        rw [Prog.run, run_quiet e _ (fun _ => c (F (f w))) (h _)]
        rfl
      rw [key f, key g]

end

section

variable {B S K Z O : Type} [DecidableEq B] [DecidableEq S] (op : S → S → S) (ki ko : K → B) (iv : S) (ob : S → B) (bl : Z → List B)

/-- From two openings, the blocks of two inputs of the iteration: the inner ones if they end in one state, otherwise the outer ones. -/
def openings (o : (K × Z) × (K × Z)) : Prog (Dir B S) S (List B × List B) :=
  andThen (walkTo op (ki o.1.1 :: bl o.1.2) iv) fun s => andThen (walkTo op (ki o.2.1 :: bl o.2.2) iv) fun t =>
    .ret (if s = t ∧ ko o.1.1 = ko o.2.1 then (ki o.1.1 :: bl o.1.2, ki o.2.1 :: bl o.2.2) else ([ko o.1.1, ob s], [ko o.2.1, ob t]))

theorem openings_within {ℓ : Nat} (hbl : ∀ z, (bl z).length ≤ ℓ) (o : (K × Z) × (K × Z)) : (openings op ki ko iv ob bl o).Within (2 * (ℓ + 1)) := by
  have h : ∀ k z, (walkTo op (ki k :: bl z) iv).Within (ℓ + 1) := fun k z => within_mono (walkTo_within op _ iv) (by
    rw [List.length_cons]; exact Nat.succ_le_succ (hbl z))
  rw [Nat.two_mul]
  exact within_andThen (h _ _) fun s => within_andThen (m := 0) (h _ _) fun t => trivial

/-- Both inputs end in one state. -/
theorem openings_collide (hki : Function.Injective ki) (hob : Function.Injective ob) (hbl : Function.Injective bl)
    {ℓ : Nat} (hl : ∀ z, (bl z).length ≤ ℓ) (E : B → Equiv.Perm S) {o : (K × Z) × (K × Z)} (hne : o.1 ≠ o.2)
    (h : nested op ki ko iv ob bl E o.1.1 o.1.2 = nested op ki ko iv ob bl E o.2.1 o.2.2) (r : List B × List B)
    (hr : (openings op ki ko iv ob bl o).run (Dir.answer E) = r) :
    r.1.length ≤ ℓ + 2 ∧ r.2.length ≤ ℓ + 2 ∧ r.1 ≠ r.2 ∧ iter op E r.1 iv = iter op E r.2 iv := by
  rw [openings, run_andThen (fun E : B → Equiv.Perm S => Dir.answer E) E, run_walkTo, run_andThen (fun E : B → Equiv.Perm S => Dir.answer E) E,
    run_walkTo] at hr
  subst hr
  rw [Prog.run]
  have l1 := hl o.1.2
  have l2 := hl o.2.2
  by_cases hc : iter op E (ki o.1.1 :: bl o.1.2) iv = iter op E (ki o.2.1 :: bl o.2.2) iv ∧ ko o.1.1 = ko o.2.1
  · rw [if_pos hc]
    refine ⟨by rw [List.length_cons]; omega, by rw [List.length_cons]; omega, fun e => ?_, hc.1⟩
    obtain ⟨e1, e2⟩ := List.cons.inj e
    exact hne (Prod.ext (hki e1) (hbl e2))
  · rw [if_neg hc]
    refine ⟨by simp, by simp, fun e => hc ?_, h⟩
    obtain ⟨e1, e2⟩ := List.cons.inj e
    exact ⟨hob (List.cons.inj e2).1, e1⟩

end

end Hacspec.Ideal
