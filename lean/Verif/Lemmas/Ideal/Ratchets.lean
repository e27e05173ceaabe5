import Mathlib.Data.Fin.Tuple.Basic
import Verif.Lemmas.Ideal.Sessions
import Verif.Lemmas.Ideal.Extract
import Verif.Spec.Ratchets

/-! # Programs that attack chains of keys -/

namespace Hacspec.Ideal

open Spec Finset

section

variable {D X W Y O : Type}

/-- A program that asks the primitive only. -/
def alone (x₀ : X) : Prog D X O → Prog (D ⊕ W) (X ⊕ Y) O
  | .ret o => .ret o
  | .ask d k => .ask (.inl d) fun r => alone x₀ (k (match r with | .inl x => x | .inr _ => x₀))

theorem run_alone (x₀ : X) (e : D → X) (y : W → Y) (p : Prog D X O) : (alone x₀ p : Prog (D ⊕ W) (X ⊕ Y) O).run (sideAnswer e y) = p.run e := by
  induction p with
  | ret o => rfl
  | ask d k ih => exact ih _

theorem alone_counts (x₀ : X) {p : Prog D X O} {q : Nat} (hp : p.Within q) : (alone x₀ p : Prog (D ⊕ W) (X ⊕ Y) O).Counts q 0 := by
  induction p generalizing q with
  | ret o => trivial
  | ask d k ih =>
    obtain ⟨c, rfl, hp⟩ := hp
    exact ⟨c, rfl, fun r => ih _ (hp _)⟩

/-- Only the first primitive is asked, all else is computed. -/
def within {D' X' J R : Type} (g : D' → X') (ans : J → R) : Prog ((D ⊕ D') ⊕ J) ((X ⊕ X') ⊕ R) O → Prog D X O
  | .ret o => .ret o
  | .ask (.inl (.inl d)) k => .ask d fun r => within g ans (k (.inl (.inl r)))
  | .ask (.inl (.inr d)) k => within g ans (k (.inl (.inr (g d))))
  | .ask (.inr j) k => within g ans (k (.inr (ans j)))

theorem run_within {D' X' J R : Type} (g : D' → X') (ans : J → R) (e : D → X) (p : Prog ((D ⊕ D') ⊕ J) ((X ⊕ X') ⊕ R) O) :
    (within g ans p).run e = p.run (sideAnswer (sideAnswer e g) ans) := by
  induction p with
  | ret o => rfl
  | ask x k ih =>
    match x with
    | .inl (.inl d) => exact ih _
    | .inl (.inr d) => exact ih _
    | .inr j => exact ih _

theorem within_within {D' X' J R : Type} (g : D' → X') (ans : J → R) {p : Prog ((D ⊕ D') ⊕ J) ((X ⊕ X') ⊕ R) O} {q n : Nat} (hp : p.Counts q n) :
    (within g ans p).Within q := by
  induction p generalizing q n with
  | ret o => trivial
  | ask x k ih =>
    match x with
    | .inl (.inl d) =>
      obtain ⟨c, rfl, hp⟩ := hp
      exact ⟨c, rfl, fun r => ih _ (hp _)⟩
    | .inl (.inr d) =>
      obtain ⟨c, rfl, hp⟩ := hp
      exact within_mono (ih _ (hp _)) (Nat.le_succ c)
    | .inr j =>
      obtain ⟨c, rfl, hp⟩ := hp
      exact ih _ (hp _)

end

/-- The first bytes of a random string are random. -/
theorem share_take_one {κ : Nat} (hκ : κ ≤ 32) (P : Bytes κ → Prop) :
    share (fun F : Bytes 32 => P ⟨F.1.take κ, by rw [List.length_take, F.2]; omega⟩) = share P := by
  classical
  have : Nonempty (Bytes (32 - κ)) := ⟨⟨List.replicate _ 0, List.length_replicate⟩⟩
  refine share_regular (C := Bytes (32 - κ)) (fun F : Bytes 32 => (⟨F.1.take κ, by rw [List.length_take, F.2]; omega⟩ : Bytes κ))
    (fun F => ⟨F.1.drop κ, by rw [List.length_drop, F.2]⟩) ?_ ?_ P
  · intro F G h
    obtain ⟨h1, h2⟩ := Prod.mk.inj h
    have e1 := congrArg Subtype.val h1
    have e2 := congrArg Subtype.val h2
    refine Subtype.ext ?_
    rw [← List.take_append_drop κ F.1, ← List.take_append_drop κ G.1]
    exact congrArg₂ _ e1 e2
  · rw [card_bytes, card_bytes, card_bytes, ← pow_add]
    congr 1
    omega

end Hacspec.Ideal
