import Verif.Lemmas.Ideal.Simulated

/-! # The simulator of a sponge, as somebody who asks -/

namespace Hacspec.Ideal

open Spec Spec.Sponge Finset

variable {B X I D R Y Z A O : Type} [DecidableEq I] [DecidableEq X]

/-- The simulator of a sponge, as somebody who asks. -/
noncomputable def simulatorOf (S : Sponge B X I D R Y) : Simulator X X Y D where
  State := List (Entry B X)
  start := []
  answer T c
    | .fwd _ x => match T.find? fun e => e.x = x with
      | some e => .ret (e.y, T)
      | none => match (S.route T x).bind S.point with
        | some y => .ask y fun v => .ret (S.split.symm (v, (S.split c).2), ⟨x, S.split.symm (v, (S.split c).2), S.route T x⟩ :: T)
        | none => .ret (c, ⟨x, c, S.route T x⟩ :: T)
    | .bwd _ y => match T.find? fun e => e.y = y with
      | some e => .ret (e.x, T)
      | none => .ret (c, ⟨c, y, none⟩ :: T)

theorem simulatorOf_within (S : Sponge B X I D R Y) (T : List (Entry B X)) (c : X) (d : Dir Unit X) :
    ((simulatorOf S).answer T c d).Within 1 := by
  cases d with
  | fwd u x =>
    simp only [simulatorOf]
    split
    · trivial
    · split
      · exact ⟨0, rfl, fun _ => trivial⟩
      · trivial
  | bwd u y =>
    simp only [simulatorOf]
    split
    · trivial
    · trivial

theorem run_simulatorOf (S : Sponge B X I D R Y) (H : Y → D) (T : List (Entry B X)) (c : X) (d : Dir Unit X) :
    ((simulatorOf S).answer T c d).run H = S.simulate H T c d := by
  cases d with
  | fwd u x =>
    simp only [simulatorOf, simulate]
    cases hf : T.find? fun e => e.x = x with
    | some e => rfl
    | none =>
      simp only [invent]
      cases hr : (S.route T x).bind S.point with
      | some y => rfl
      | none => rfl
  | bwd u y =>
    simp only [simulatorOf, simulate]
    cases hf : T.find? fun e => e.y = y with
    | some e => rfl
    | none => rfl

theorem run_simulator (S : Sponge B X I D R Y) (H : Y → D) (ans : Z → A) {p : Prog (Dir Unit X ⊕ Z) (X ⊕ A) O} {q a : Nat}
    (hp : p.Counts q a) (cs : List X) (hc : q ≤ cs.length) (T : List (Entry B X)) :
    (simulatorOf S).run H ans p cs T = some (S.simulated H ans p cs T) := by
  induction p generalizing q a cs T with
  | ret o => rfl
  | ask x k ih =>
    cases x with
    | inl d =>
      obtain ⟨q, rfl, hp⟩ := hp
      cases cs with
      | nil => simp at hc
      | cons c cs =>
        change (simulatorOf S).run H ans (k (.inl (((simulatorOf S).answer T c d).run H).1)) cs (((simulatorOf S).answer T c d).run H).2 = _
        rw [run_simulatorOf, simulated, List.headD_cons, List.tail_cons]
        exact ih _ (hp _) cs (by simpa using hc) _
    | inr z =>
      obtain ⟨a, rfl, hp⟩ := hp
      exact ih _ (hp _) cs hc T

/-- More random states than questions do not matter. -/
theorem share_coins [Fintype X] (S : Sponge B X I D R Y) (H : Y → D) (ans : Z → A) (acc : O → Prop)
    {p : Prog (Dir Unit X ⊕ Z) (X ⊕ A) O} {q a n : Nat} (hp : p.Counts q a) (hn : q ≤ n) (T : List (Entry B X)) :
    share (fun cs : Fin n → X => acc (S.simulated H ans p (List.ofFn cs) T)) =
      share (fun cs : Fin q → X => acc (S.simulated H ans p (List.ofFn cs) T)) := by
  have hX : Nonempty X := ⟨S.start⟩
  induction p generalizing q a n T with
  | ret o =>
    classical
    have e : ∀ (m : Nat), share (fun cs : Fin m → X => acc (S.simulated H ans (.ret o) (List.ofFn cs) T)) = if acc o then 1 else 0 :=
      fun m => share_const (acc o)
    rw [e, e]
  | ask x k ih =>
    cases x with
    | inl d =>
      obtain ⟨q, rfl, hp⟩ := hp
      obtain ⟨n, rfl⟩ := Nat.exists_eq_add_of_le' (show 1 ≤ n by omega)
      have e : ∀ m, share (fun cs : Fin (m + 1) → X => acc (S.simulated H ans (.ask (.inl d) k) (List.ofFn cs) T)) =
          (∑ c, share fun cs : Fin m → X => acc (S.simulated H ans (k (.inl (S.simulate H T c d).1)) (List.ofFn cs)
            (S.simulate H T c d).2)) / Fintype.card X := by
        intro m
        rw [← share_equiv (coinsEquiv X m), share_prod]
        congr 1
        refine Finset.sum_congr rfl fun c _ => share_congr fun cs => ?_
        simp only [coinsEquiv, Equiv.coe_fn_mk]
        rw [List.ofFn_cons, simulated, List.headD_cons, List.tail_cons]
      rw [e, e]
      congr 1
      exact Finset.sum_congr rfl fun c _ => ih _ (hp _) (by omega) _
    | inr z =>
      obtain ⟨a, rfl, hp⟩ := hp
      exact ih _ (hp _) hn T

/-- Nobody sees a difference between a sponge with a random permutation and a random function with the simulator. -/
theorem simulator_close [Fintype X] [Fintype D] [Fintype R] [Fintype Y] [DecidableEq Y] (S : Sponge B X I D R Y) (G : (Y → D) → Z → A)
    (hS : Lawful S) {full : Z → List B} {pts : Z → List Y} {ℓ : Nat} (hℓ : ∀ z, (full z).length ≤ ℓ)
    (hpts : ∀ z, ∀ y ∈ pts z, S.path y <+: full z) (hG : ∀ z, ∀ H H' : Y → D, (∀ y ∈ pts z, H y = H' y) → G H z = G H' z)
    {ε : ℚ} (hε : ∀ d v, share (fun r : R => S.inner (S.split.symm (d, r)) = v) ≤ ε)
    {p : Prog (Dir Unit X ⊕ Z) (X ⊕ A) Bool} {q a n : Nat} (hp : p.Counts q a) (hn : n = q + a * ℓ) :
    |share (fun π : Equiv.Perm X => p.run (spongeEv S G π) = true) -
      share (fun ω : (Y → D) × (Fin q → X) => (simulatorOf S).run ω.1 (G ω.1) p (List.ofFn ω.2) (simulatorOf S).start = some true)| ≤
      n * (n + 1) * ε := by
  have h := simulator_abs S G (fun o : Bool => o = true) hS hℓ hpts hG hε hp hn
  have e : share (fun ω : (Y → D) × (Fin q → X) => (simulatorOf S).run ω.1 (G ω.1) p (List.ofFn ω.2) (simulatorOf S).start = some true) =
      share (fun ω : (Y → D) × (Fin n → X) => S.simulated ω.1 (G ω.1) p (List.ofFn ω.2) [] = true) := by
    rw [share_prod, share_prod]
    congr 1
    refine Finset.sum_congr rfl fun H _ => ?_
    have h1 := share_coins S H (G H) (fun o : Bool => o = true) hp (show q ≤ n by rw [hn]; exact Nat.le_add_right ..) []
    rw [h1]
    refine share_congr fun cs => ?_
    have h2 := run_simulator S H (G H) hp (List.ofFn cs) (by rw [List.length_ofFn]) []
    exact (iff_of_eq (congrArg (· = some true) h2)).trans Option.some_inj
  rw [e]
  exact h

end Hacspec.Ideal
