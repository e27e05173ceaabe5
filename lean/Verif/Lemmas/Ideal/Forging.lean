import Mathlib.Data.Set.Function
import Verif.Lemmas.Ideal.Hmac

/-! # From distinguishing to forging -/

namespace Hacspec.Ideal

open Spec Finset

section

variable {Q R O : Type}

theorem run_same {ev ev' : Q → R} (p : Prog Q R O) (h : ∀ x ∈ p.questions ev, ev x = ev' x) : p.run ev = p.run ev' := by
  induction p with
  | ret o => rfl
  | ask x k ih =>
    have e := h x (List.mem_cons_self ..)
    rw [Prog.run, Prog.run, ← e]
    exact ih _ fun y hy => h y (List.mem_cons_of_mem _ hy)

theorem questions_same {ev ev' : Q → R} (p : Prog Q R O) (h : ∀ x ∈ p.questions ev, ev x = ev' x) : p.questions ev = p.questions ev' := by
  induction p with
  | ret o => rfl
  | ask x k ih =>
    have e := h x (List.mem_cons_self ..)
    rw [Prog.questions, Prog.questions, ← e]
    rw [ih _ fun y hy => h y (List.mem_cons_of_mem _ hy)]

end

section

variable {D Z T R : Type}

/-- The forged tag is checked. -/
def check (ok : R → T → Prop) : Prog (D ⊕ Z) R (Z × T) → List (D ⊕ Z) → Prog (D ⊕ Z) R Prop
  | .ret o, used => .ask (.inr o.1) fun r => .ret (.inr o.1 ∉ used ∧ ok r o.2)
  | .ask x k, used => .ask x fun r => check ok (k r) (x :: used)

theorem run_check (ok : R → T → Prop) (ev : D ⊕ Z → R) (p : Prog (D ⊕ Z) R (Z × T)) (used : List (D ⊕ Z)) :
    (check ok p used).run ev ↔ (.inr (p.run ev).1 ∉ used ∧ .inr (p.run ev).1 ∉ p.questions ev) ∧ ok (ev (.inr (p.run ev).1)) (p.run ev).2 := by
  induction p generalizing used with
  | ret o => simp [check, Prog.run, Prog.questions]
  | ask x k ih =>
    rw [check, Prog.run, ih, Prog.run, Prog.questions]
    simp only [List.mem_cons, not_or]
    tauto

theorem check_counts (ok : R → T → Prop) {p : Prog (D ⊕ Z) R (Z × T)} {q n : Nat} (hp : p.Counts q n) (used : List (D ⊕ Z)) :
    (check ok p used).Counts q (n + 1) := by
  induction p generalizing q n used with
  | ret o => exact ⟨n, rfl, fun r => trivial⟩
  | ask x k ih =>
    cases x with
    | inl x =>
      obtain ⟨q, rfl, h⟩ := hp
      exact ⟨q, rfl, fun r => ih _ (h _) _⟩
    | inr x =>
      obtain ⟨n, rfl, h⟩ := hp
      exact ⟨n + 1, rfl, fun r => ih _ (h _) _⟩

end

/-- A value of a random function that was not asked for is guessed for one of all values. -/
theorem share_guess {Z S : Type} [Fintype Z] [DecidableEq Z] [Fintype S] [Nonempty S] {P : (Z → S) → Prop} (z : (Z → S) → Z)
    (hz : ∀ f v, P f → z (Function.update f (z f) v) = z f)
    (ht : ∀ f v, P f → P (Function.update f (z f) v) → v = f (z f)) : share P ≤ 1 / Fintype.card S := by
  classical
  have hS : (0 : ℚ) < Fintype.card S := Nat.cast_pos.mpr Fintype.card_pos
  have hF : (0 : ℚ) < Fintype.card (Z → S) := Nat.cast_pos.mpr Fintype.card_pos
  rw [share, div_le_div_iff₀ hF hS, one_mul, ← Nat.cast_mul, Nat.cast_le]
  have hinj : Set.InjOn (fun x : (Z → S) × S => Function.update x.1 (z x.1) x.2) ((univ.filter P) ×ˢ (univ : Finset S) : Finset _) := by
    rintro ⟨f, v⟩ hf ⟨f', v'⟩ hf' e
    simp only [Finset.coe_product, Set.mem_prod, Finset.mem_coe, Finset.mem_filter, Finset.mem_univ, true_and, and_true] at hf hf' e
    have ez : z f = z f' := by rw [← hz f v hf, e, hz f' v' hf']
    have ev : v = v' := by
      have := congrFun e (z f)
      rwa [Function.update_self, ez, Function.update_self] at this
    subst ev
    have e1 : f' = Function.update f (z f) (f' (z f)) := by
      funext y
      by_cases hy : y = z f
      · rw [hy, Function.update_self]
      · rw [Function.update_of_ne hy]
        have := congrFun e y
        rw [Function.update_of_ne hy, Function.update_of_ne (by rwa [← ez])] at this
        exact this.symm
    have e2 := ht f (f' (z f)) hf (by rw [← e1]; exact hf')
    rw [e2, Function.update_eq_self] at e1
    rw [e1]
  have h := Finset.card_le_card_of_injOn _ (fun x _ => Finset.mem_univ _) hinj
  rw [Finset.card_product, Finset.card_univ, Finset.card_univ] at h
  convert h

end Hacspec.Ideal
