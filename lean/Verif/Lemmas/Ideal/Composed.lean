import Verif.Lemmas.Ideal.Sessions
import Verif.Lemmas.Ideal.Streams
import Verif.Lemmas.Ideal.ChaCha
import Verif.Spec.Composed

/-! # Programs that attack encryption with authentication -/

namespace Hacspec.Ideal

open Spec Finset

variable {D X D' X' J J' R R' O O' : Type}

/-- The questions to the second primitive are computed, and those of the other kind are asked in another form. -/
def recast (x₀ : X) (r₀ : R') (g : D' → X') (f : J → J') (c : J → R' → R) (out : O → O') :
    Prog ((D ⊕ D') ⊕ J) ((X ⊕ X') ⊕ R) O → Prog (D ⊕ J') (X ⊕ R') O'
  | .ret o => .ret (out o)
  | .ask (.inl (.inl d)) k => .ask (.inl d) fun r => recast x₀ r₀ g f c out (k (.inl (.inl (match r with | .inl x => x | .inr _ => x₀))))
  | .ask (.inl (.inr d)) k => recast x₀ r₀ g f c out (k (.inl (.inr (g d))))
  | .ask (.inr j) k => .ask (.inr (f j)) fun r => recast x₀ r₀ g f c out (k (.inr (c j (match r with | .inl _ => r₀ | .inr r => r))))

section

variable (x₀ : X) (r₀ : R') (g : D' → X') (f : J → J') (c : J → R' → R) (out : O → O')

theorem run_recast (e : D → X) (y : J' → R') (p : Prog ((D ⊕ D') ⊕ J) ((X ⊕ X') ⊕ R) O) :
    (recast x₀ r₀ g f c out p).run (sideAnswer e y) = out (p.run (sideAnswer (sideAnswer e g) fun j => c j (y (f j)))) := by
  induction p with
  | ret o => rfl
  | ask x k ih =>
    match x with
    | .inl (.inl d) => exact ih _
    | .inl (.inr d) => exact ih _
    | .inr j => exact ih _

theorem questions_recast (e : D → X) (y : J' → R') (p : Prog ((D ⊕ D') ⊕ J) ((X ⊕ X') ⊕ R) O) (j' : J')
    (h : .inr j' ∈ (recast x₀ r₀ g f c out p).questions (sideAnswer e y)) :
    ∃ j, f j = j' ∧ .inr j ∈ p.questions (sideAnswer (sideAnswer e g) fun j => c j (y (f j))) := by
  induction p with
  | ret o => exact absurd h List.not_mem_nil
  | ask x k ih =>
    match x with
    | .inl (.inl d) =>
      rcases List.mem_cons.mp h with h | h
      · cases h
      · obtain ⟨j, h1, h2⟩ := ih _ h
        exact ⟨j, h1, List.mem_cons_of_mem _ h2⟩
    | .inl (.inr d) =>
      obtain ⟨j, h1, h2⟩ := ih _ h
      exact ⟨j, h1, List.mem_cons_of_mem _ h2⟩
    | .inr j =>
      rcases List.mem_cons.mp h with h | h
      · exact ⟨j, (Sum.inr.inj h).symm, List.mem_cons_self ..⟩
      · obtain ⟨j, h1, h2⟩ := ih _ h
        exact ⟨j, h1, List.mem_cons_of_mem _ h2⟩

theorem recast_counts {p : Prog ((D ⊕ D') ⊕ J) ((X ⊕ X') ⊕ R) O} {q n : Nat} (hp : p.Counts q n) :
    (recast x₀ r₀ g f c out p : Prog (D ⊕ J') (X ⊕ R') O').Counts q n := by
  induction p generalizing q n with
  | ret o => trivial
  | ask x k ih =>
    match x with
    | .inl (.inl d) =>
      obtain ⟨a, rfl, hp⟩ := hp
      exact ⟨a, rfl, fun r => ih _ (hp _)⟩
    | .inl (.inr d) =>
      obtain ⟨a, rfl, hp⟩ := hp
      exact counts_le (ih _ (hp _)) (Nat.le_succ a)
    | .inr j =>
      obtain ⟨a, rfl, hp⟩ := hp
      exact ⟨a, rfl, fun r => ih _ (hp _)⟩

end

/-- The same with the first primitive computed. -/
def encPart (x₀ : X') (r₀ : R') (e : D → X) (f : J → J') (c : J → R' → R) :
    Prog ((D ⊕ D') ⊕ J) ((X ⊕ X') ⊕ R) O → Prog (D' ⊕ J') (X' ⊕ R') O
  | .ret o => .ret o
  | .ask (.inl (.inl d)) k => encPart x₀ r₀ e f c (k (.inl (.inl (e d))))
  | .ask (.inl (.inr d)) k => .ask (.inl d) fun r => encPart x₀ r₀ e f c (k (.inl (.inr (match r with | .inl x => x | .inr _ => x₀))))
  | .ask (.inr j) k => .ask (.inr (f j)) fun r => encPart x₀ r₀ e f c (k (.inr (c j (match r with | .inl _ => r₀ | .inr r => r))))

section

variable (x₀ : X') (r₀ : R') (e : D → X) (f : J → J') (c : J → R' → R)

theorem run_encPart (g : D' → X') (y : J' → R') (p : Prog ((D ⊕ D') ⊕ J) ((X ⊕ X') ⊕ R) O) :
    (encPart x₀ r₀ e f c p).run (sideAnswer g y) = p.run (sideAnswer (sideAnswer e g) fun j => c j (y (f j))) := by
  induction p with
  | ret o => rfl
  | ask x k ih =>
    match x with
    | .inl (.inl d) => exact ih _
    | .inl (.inr d) => exact ih _
    | .inr j => exact ih _

theorem encPart_uses {w : J' → Nat} {L : Nat} (hw : ∀ j, w (f j) ≤ L) {p : Prog ((D ⊕ D') ⊕ J) ((X ⊕ X') ⊕ R) O} {q n s : Nat}
    (hp : p.Counts q n) (hs : n * L ≤ s) : (encPart x₀ r₀ e f c p : Prog (D' ⊕ J') (X' ⊕ R') O).Uses w q s := by
  induction p generalizing q n s with
  | ret o => trivial
  | ask x k ih =>
    match x with
    | .inl (.inl d) =>
      obtain ⟨a, rfl, hp⟩ := hp
      exact ih _ (counts_le (hp _) (Nat.le_succ a)) hs
    | .inl (.inr d) =>
      obtain ⟨a, rfl, hp⟩ := hp
      exact ⟨a, rfl, fun r => ih _ (hp _) hs⟩
    | .inr j =>
      obtain ⟨a, rfl, hp⟩ := hp
      have h := hw j
      rw [Nat.succ_mul] at hs
      exact ⟨s - w (f j), by omega, fun r => ih _ (hp _) (by omega)⟩

theorem encPart_fresh {I : Type} {b : J' → List I} {p : Prog ((D ⊕ D') ⊕ J) ((X ⊕ X') ⊕ R) O} {used : List I}
    (hp : FreshBlocks (fun j => b (f j)) p used) : FreshBlocks b (encPart x₀ r₀ e f c p : Prog (D' ⊕ J') (X' ⊕ R') O) used := by
  induction p generalizing used with
  | ret o => trivial
  | ask x k ih =>
    match x with
    | .inl (.inl d) => exact ih _ (hp _)
    | .inl (.inr d) => exact fun r => ih _ (hp _)
    | .inr j => exact ⟨hp.1, hp.2.1, fun r => ih _ (hp.2.2 _)⟩

end

theorem length_streamOf {n : Nat} (hn : 0 < n) (H : Bytes 12 × U32 → Bytes n) (x : StreamAsk) : (streamOf H x).length = x.2.2.length :=
  length_stream hn (fun j => (H _).2) _

/-- Fewer than `2³²` blocks are different. -/
theorem nodup_blocks {n : Nat} (x : StreamAsk) (h : (x.2.2.length + n - 1) / n ≤ 2 ^ 32) : (x.blocks n).Nodup := by
  refine List.Nodup.map_on (fun i hi j hj e => ?_) List.nodup_range
  rw [List.mem_range] at hi hj
  have e := congrArg BitVec.toNat (BitVec.add_right_inj _ |>.mp (Prod.ext_iff.mp e).2)
  rw [BitVec.toNat_ofNat, BitVec.toNat_ofNat, Nat.mod_eq_of_lt (by omega), Nat.mod_eq_of_lt (by omega)] at e
  exact e

end Hacspec.Ideal
