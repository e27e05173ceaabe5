import Mathlib.Logic.Function.Basic
import Verif.Spec.Simulator
import Verif.Lemmas.Ideal.Forging
import Verif.Lemmas.Ideal.Strategy

/-! # A random function after a secret key, beside a simulator that asks the random function -/

namespace Hacspec.Ideal

open Spec Finset

section

variable {D R Z Z' O : Type}

/-- The questions of the second kind are put in other words. -/
def relabel (f : Z → Z') : Prog (D ⊕ Z) R O → Prog (D ⊕ Z') R O
  | .ret o => .ret o
  | .ask (.inl d) k => .ask (.inl d) fun r => relabel f (k r)
  | .ask (.inr z) k => .ask (.inr (f z)) fun r => relabel f (k r)

theorem run_relabel (f : Z → Z') (ev : D ⊕ Z' → R) (p : Prog (D ⊕ Z) R O) : (relabel f p).run ev = p.run fun x => ev (Sum.map id f x) := by
  induction p with
  | ret o => rfl
  | ask x k ih => cases x <;> exact ih _

theorem relabel_counts (f : Z → Z') {p : Prog (D ⊕ Z) R O} {q a : Nat} (hp : p.Counts q a) : (relabel f p).Counts q a := by
  induction p generalizing q a with
  | ret o => trivial
  | ask x k ih =>
    cases x with
    | inl d =>
      obtain ⟨q, rfl, hp⟩ := hp
      exact ⟨q, rfl, fun r => ih _ (hp r)⟩
    | inr z =>
      obtain ⟨a, rfl, hp⟩ := hp
      exact ⟨a, rfl, fun r => ih _ (hp r)⟩

open Classical in
/-- Say whether the result is accepted. -/
noncomputable def judge {Q : Type} (acc : O → Prop) : Prog Q R O → Prog Q R Bool
  | .ret o => .ret (decide (acc o))
  | .ask x k => .ask x fun r => judge acc (k r)

theorem run_judge {Q : Type} (acc : O → Prop) (ev : Q → R) (p : Prog Q R O) : (judge acc p).run ev = true ↔ acc (p.run ev) := by
  induction p with
  | ret o => exact @decide_eq_true_iff _ (_)
  | ask x k ih => exact ih _

theorem judge_counts (acc : O → Prop) {p : Prog (D ⊕ Z) R O} {q a : Nat} (hp : p.Counts q a) : (judge acc p).Counts q a := by
  induction p generalizing q a with
  | ret o => trivial
  | ask x k ih =>
    cases x with
    | inl d =>
      obtain ⟨q, rfl, hp⟩ := hp
      exact ⟨q, rfl, fun r => ih _ (hp r)⟩
    | inr z =>
      obtain ⟨a, rfl, hp⟩ := hp
      exact ⟨a, rfl, fun r => ih _ (hp r)⟩

end

variable {C X Y Y' D Z Z' A O K : Type}

/-- The questions of the second kind are answered by the program itself. -/
def settle (ans : Z → A) : Prog (Dir Unit X ⊕ Z) (X ⊕ A) O → Prog (Dir Unit X ⊕ Z') (X ⊕ A) O
  | .ret o => .ret o
  | .ask (.inl d) k => .ask (.inl d) fun r => settle ans (k r)
  | .ask (.inr z) k => settle ans (k (.inr (ans z)))

theorem run_settle (ans : Z → A) (π : Equiv.Perm X) (ans' : Z' → A) (p : Prog (Dir Unit X ⊕ Z) (X ⊕ A) O) :
    (settle ans p).run (bothAnswer π ans') = p.run (bothAnswer π ans) := by
  induction p with
  | ret o => rfl
  | ask x k ih => cases x <;> exact ih _

theorem settle_counts (ans : Z → A) {p : Prog (Dir Unit X ⊕ Z) (X ⊕ A) O} {q a : Nat} (hp : p.Counts q a) :
    (settle ans p : Prog (Dir Unit X ⊕ Z') (X ⊕ A) O).Counts q 0 := by
  induction p generalizing q a with
  | ret o => trivial
  | ask x k ih =>
    cases x with
    | inl d =>
      obtain ⟨q, rfl, hp⟩ := hp
      exact ⟨q, rfl, fun r => ih _ (hp r)⟩
    | inr z =>
      obtain ⟨a, rfl, hp⟩ := hp
      exact ih _ (hp _)

variable (sim : Simulator C X Y D)

theorem sim_relabel (H : Y → D) (f : Z → Z') (ans : Z' → A) (p : Prog (Dir Unit X ⊕ Z) (X ⊕ A) O) (cs : List C) (s : sim.State) :
    sim.run H ans (relabel f p) cs s = sim.run H (fun z => ans (f z)) p cs s := by
  induction p generalizing cs s with
  | ret o => rfl
  | ask x k ih =>
    cases x with
    | inl d => cases cs with
      | nil => rfl
      | cons c cs => exact ih _ _ _
    | inr z => exact ih _ _ _

theorem sim_settle (H : Y → D) (ans : Z → A) (ans' : Z' → A) (p : Prog (Dir Unit X ⊕ Z) (X ⊕ A) O) (cs : List C) (s : sim.State) :
    sim.run H ans' (settle ans p) cs s = sim.run H ans p cs s := by
  induction p generalizing cs s with
  | ret o => rfl
  | ask x k ih =>
    cases x with
    | inl d => cases cs with
      | nil => rfl
      | cons c cs => exact ih _ _ _
    | inr z => exact ih _ _ _

theorem length_questions (H : Y → D) {p : Prog Y D O} {n : Nat} (hp : p.Within n) : (p.questions H).length ≤ n := by
  induction p generalizing n with
  | ret o => exact Nat.zero_le _
  | ask x k ih =>
    obtain ⟨n, rfl, hp⟩ := hp
    exact Nat.succ_le_succ (ih _ (hp _))

/-- What the simulator asks. -/
def simAsked (H : Y → D) (ans : Z → A) : Prog (Dir Unit X ⊕ Z) (X ⊕ A) O → List C → sim.State → List Y
  | .ret _, _, _ => []
  | .ask (.inl d) k, c :: cs, s =>
    (sim.answer s c d).questions H ++ simAsked H ans (k (.inl ((sim.answer s c d).run H).1)) cs ((sim.answer s c d).run H).2
  | .ask (.inl _) _, [], _ => []
  | .ask (.inr z) k, cs, s => simAsked H ans (k (.inr (ans z))) cs s

theorem length_simAsked (hs : ∀ s c d, (sim.answer s c d).Within 1) (H : Y → D) (ans : Z → A) {p : Prog (Dir Unit X ⊕ Z) (X ⊕ A) O}
    {q a : Nat} (hp : p.Counts q a) (cs : List C) (s : sim.State) : (simAsked sim H ans p cs s).length ≤ q := by
  induction p generalizing q a cs s with
  | ret o => exact Nat.zero_le _
  | ask x k ih =>
    cases x with
    | inl d =>
      obtain ⟨q, rfl, hp⟩ := hp
      cases cs with
      | nil => exact Nat.zero_le _
      | cons c cs =>
        rw [simAsked, List.length_append]
        have h1 := length_questions H (hs s c d)
        have h2 := ih _ (hp (.inl ((sim.answer s c d).run H).1)) cs ((sim.answer s c d).run H).2
        omega
    | inr z =>
      obtain ⟨a, rfl, hp⟩ := hp
      exact ih _ (hp _) cs s

theorem sim_same {H H' : Y → D} (ans : Z → A) (p : Prog (Dir Unit X ⊕ Z) (X ⊕ A) O) (cs : List C) (s : sim.State)
    (h : ∀ y ∈ simAsked sim H ans p cs s, H y = H' y) : sim.run H ans p cs s = sim.run H' ans p cs s := by
  induction p generalizing cs s with
  | ret o => rfl
  | ask x k ih =>
    cases x with
    | inl d =>
      cases cs with
      | nil => rfl
      | cons c cs =>
        rw [simAsked] at h
        have e := run_same (sim.answer s c d) fun y hy => h y (List.mem_append_left _ hy)
        rw [Simulator.run, Simulator.run, ← e]
        exact ih _ cs _ fun y hy => h y (List.mem_append_right _ hy)
    | inr z => exact ih _ cs s h

/-- Whoever gets a random function after a secret key, and beside it answers of somebody who asks the random function at most `q` times,
can only tell it from another random function if one of the questions has the secret key. -/
theorem share_prefixed [Fintype K] [Nonempty K] [Fintype Y] [DecidableEq Y] [Fintype Y'] [DecidableEq Y'] [Fintype D] [Nonempty D]
    [Fintype C] (hs : ∀ s c d, (sim.answer s c d).Within 1) (emb : K → Y' → Y) (hinj : ∀ k, Function.Injective (emb k))
    (hdis : ∀ k k' y y', emb k y = emb k' y' → k = k') (G : (Y' → D) → Z → A) {p : Prog (Dir Unit X ⊕ Z) (X ⊕ A) O} {q a m : Nat}
    (hp : p.Counts q a) (acc : Option O → Prop) :
    share (fun ω : ((Y → D) × K) × (Fin m → C) =>
        acc (sim.run ω.1.1 (G fun y => ω.1.1 (emb ω.1.2 y)) p (List.ofFn ω.2) sim.start)) ≤
      share (fun ω : ((Y → D) × (Y' → D)) × (Fin m → C) => acc (sim.run ω.1.1 (G ω.1.2) p (List.ofFn ω.2) sim.start)) +
        q / Fintype.card K := by
  classical
  have hreg := share_regular (C := Y' → D)
    (fun ω : (((Y → D) × (Y' → D)) × (Fin m → C)) × K => ((Function.extend (emb ω.2) ω.1.1.2 ω.1.1.1, ω.2), ω.1.2))
    (fun ω y => ω.1.1.1 (emb ω.2 y))
    (by
      rintro ⟨⟨⟨H, H'⟩, cs⟩, k⟩ ⟨⟨⟨J, J'⟩, ds⟩, l⟩ h
      simp only [Prod.mk.injEq] at h
      obtain ⟨⟨⟨h1, rfl⟩, rfl⟩, h2⟩ := h
      have e' : H' = J' := funext fun y => by
        have := congrFun h1 (emb k y)
        rwa [(hinj k).extend_apply, (hinj k).extend_apply] at this
      have e : H = J := funext fun y => by
        by_cases hy : ∃ y', emb k y' = y
        · obtain ⟨y', rfl⟩ := hy
          exact congrFun h2 y'
        · have := congrFun h1 y
          rwa [Function.extend_apply' _ _ _ hy, Function.extend_apply' _ _ _ hy] at this
      rw [e, e'])
    (by simp only [Fintype.card_prod]; ring)
    (fun ω : ((Y → D) × K) × (Fin m → C) => acc (sim.run ω.1.1 (G fun y => ω.1.1 (emb ω.1.2 y)) p (List.ofFn ω.2) sim.start))
  rw [← hreg]
  have h := share_le_add (Ω := (((Y → D) × (Y' → D)) × (Fin m → C)) × K)
    (P := fun ω => acc (sim.run (Function.extend (emb ω.2) ω.1.1.2 ω.1.1.1)
      (G fun y => Function.extend (emb ω.2) ω.1.1.2 ω.1.1.1 (emb ω.2 y)) p (List.ofFn ω.1.2) sim.start))
    (Q := fun ω => acc (sim.run ω.1.1.1 (G ω.1.1.2) p (List.ofFn ω.1.2) sim.start))
    (R := fun ω => ∃ y ∈ simAsked sim ω.1.1.1 (G ω.1.1.2) p (List.ofFn ω.1.2) sim.start, ∃ y', emb ω.2 y' = y) (fun ω hω => by
      by_cases hk : ∃ y ∈ simAsked sim ω.1.1.1 (G ω.1.1.2) p (List.ofFn ω.1.2) sim.start, ∃ y', emb ω.2 y' = y
      · exact .inr hk
      · left
        simp only [(hinj ω.2).extend_apply] at hω
        rwa [← sim_same sim (G ω.1.1.2) p _ _ fun y hy => (Function.extend_apply' _ _ _ fun h => hk ⟨y, hy, h⟩).symm] at hω)
  refine h.trans (add_le_add (le_of_eq ?_) ?_)
  · exact share_fst (fun ω : ((Y → D) × (Y' → D)) × (Fin m → C) => acc (sim.run ω.1.1 (G ω.1.2) p (List.ofFn ω.2) sim.start))
  · refine share_prod_le (by positivity) fun ω => ?_
    have h1 : ∀ y : Y, share (fun k : K => ∃ y', emb k y' = y) ≤ 1 / Fintype.card K := fun y => by
      have h2 := share_le (P := fun k : K => ∃ y', emb k y' = y) (c := 1) fun t ht => Finset.card_le_one.mpr fun k hk l hl => by
        obtain ⟨y1, e1⟩ := ht k hk
        obtain ⟨y2, e2⟩ := ht l hl
        exact hdis _ _ _ _ (e1.trans e2.symm)
      rwa [Nat.cast_one] at h2
    have h3 := share_exists_mem (simAsked sim ω.1.1 (G ω.1.2) p (List.ofFn ω.2) sim.start) h1
    refine h3.trans ?_
    rw [mul_one_div]
    exact div_le_div_of_nonneg_right (Nat.cast_le.mpr (length_simAsked sim hs _ _ hp _ _)) (Nat.cast_nonneg _)

end Hacspec.Ideal
