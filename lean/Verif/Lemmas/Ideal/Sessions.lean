import Verif.Lemmas.Ideal.Hkdf
import Verif.Lemmas.Ideal.Users
import Verif.Spec.Sessions

/-! # Programs that attack sessions -/

namespace Hacspec.Ideal

open Spec Finset

section

variable {D X D' X' J R W Y Q O : Type}

theorem counts_le {p : Prog (D ⊕ J) R O} {q n q' : Nat} (hp : p.Counts q n) (h : q ≤ q') : p.Counts q' n := by
  induction p generalizing q n q' with
  | ret o => trivial
  | ask x k ih =>
    cases x with
    | inl d =>
      obtain ⟨c, rfl, hp⟩ := hp
      obtain ⟨c', rfl⟩ : ∃ c', q' = c' + 1 := ⟨q' - 1, by omega⟩
      exact ⟨c', rfl, fun r => ih r (hp r) (by omega)⟩
    | inr j =>
      obtain ⟨c, rfl, hp⟩ := hp
      exact ⟨c, rfl, fun r => ih r (hp r) h⟩

/-! ## Only the first primitive is asked -/

/-- All but the questions to the first primitive is computed. -/
def inside (x₀ : X) (g : D' → X') (ans : J → R) : Prog ((D ⊕ D') ⊕ J) ((X ⊕ X') ⊕ R) O → Prog (D ⊕ W) (X ⊕ Y) O
  | .ret o => .ret o
  | .ask (.inl (.inl d)) k => .ask (.inl d) fun r => inside x₀ g ans (k (.inl (.inl (match r with | .inl x => x | .inr _ => x₀))))
  | .ask (.inl (.inr d)) k => inside x₀ g ans (k (.inl (.inr (g d))))
  | .ask (.inr j) k => inside x₀ g ans (k (.inr (ans j)))

theorem run_inside (x₀ : X) (g : D' → X') (ans : J → R) (e : D → X) (y : W → Y) (p : Prog ((D ⊕ D') ⊕ J) ((X ⊕ X') ⊕ R) O) :
    (inside x₀ g ans p : Prog (D ⊕ W) (X ⊕ Y) O).run (sideAnswer e y) = p.run (sideAnswer (sideAnswer e g) ans) := by
  induction p with
  | ret o => rfl
  | ask x k ih =>
    match x with
    | .inl (.inl d) => exact ih _
    | .inl (.inr d) => exact ih _
    | .inr j => exact ih _

theorem inside_counts (x₀ : X) (g : D' → X') (ans : J → R) {p : Prog ((D ⊕ D') ⊕ J) ((X ⊕ X') ⊕ R) O} {q n : Nat} (hp : p.Counts q n) :
    (inside x₀ g ans p : Prog (D ⊕ W) (X ⊕ Y) O).Counts q 0 := by
  induction p generalizing q n with
  | ret o => trivial
  | ask x k ih =>
    match x with
    | .inl (.inl d) =>
      obtain ⟨c, rfl, hp⟩ := hp
      exact ⟨c, rfl, fun r => ih _ (hp _)⟩
    | .inl (.inr d) =>
      obtain ⟨c, rfl, hp⟩ := hp
      exact counts_le (ih _ (hp _)) (Nat.le_succ c)
    | .inr j =>
      obtain ⟨c, rfl, hp⟩ := hp
      exact ih _ (hp _)

/-- First some keys are asked for. -/
def askKeys (y₀ : Y) : List W → (List Y → Prog (D ⊕ W) (X ⊕ Y) O) → Prog (D ⊕ W) (X ⊕ Y) O
  | [], c => c []
  | w :: ws, c => .ask (.inr w) fun r => askKeys y₀ ws fun l => c ((match r with | .inr y => y | .inl _ => y₀) :: l)

theorem run_askKeys (y₀ : Y) (e : D → X) (y : W → Y) (ws : List W) (c : List Y → Prog (D ⊕ W) (X ⊕ Y) O) :
    (askKeys y₀ ws c).run (sideAnswer e y) = (c (ws.map y)).run (sideAnswer e y) := by
  induction ws generalizing c with
  | nil => rfl
  | cons w ws ih => exact ih _

theorem askKeys_counts (y₀ : Y) {q : Nat} (ws : List W) (c : List Y → Prog (D ⊕ W) (X ⊕ Y) O) (hc : ∀ l, (c l).Counts q 0) :
    (askKeys y₀ ws c).Counts q ws.length := by
  induction ws generalizing c with
  | nil => exact hc []
  | cons w ws ih => exact ⟨ws.length, rfl, fun r => ih _ fun l => hc _⟩

/-! ## The first primitive is not asked -/

/-- The answer of the second primitive or of a session. -/
def lift : X' ⊕ R → (X ⊕ X') ⊕ R
  | .inl x => .inl (.inr x)
  | .inr s => .inr s

/-- The questions to the first primitive are computed. -/
def absorb (e : D → X) : Prog ((D ⊕ D') ⊕ J) ((X ⊕ X') ⊕ R) O → Prog (D' ⊕ J) (X' ⊕ R) O
  | .ret o => .ret o
  | .ask (.inl (.inl d)) k => absorb e (k (.inl (.inl (e d))))
  | .ask (.inl (.inr d)) k => .ask (.inl d) fun r => absorb e (k (lift r))
  | .ask (.inr j) k => .ask (.inr j) fun r => absorb e (k (lift r))

theorem run_absorb (e : D → X) (g : D' → X') (f : J → R) (p : Prog ((D ⊕ D') ⊕ J) ((X ⊕ X') ⊕ R) O) :
    (absorb e p).run (sideAnswer g f) = p.run (sideAnswer (sideAnswer e g) f) := by
  induction p with
  | ret o => rfl
  | ask x k ih =>
    match x with
    | .inl (.inl d) => exact ih _
    | .inl (.inr d) => exact ih _
    | .inr j => exact ih _

theorem absorb_counts (e : D → X) {p : Prog ((D ⊕ D') ⊕ J) ((X ⊕ X') ⊕ R) O} {q n : Nat} (hp : p.Counts q n) :
    (absorb e p).Counts q n := by
  induction p generalizing q n with
  | ret o => trivial
  | ask x k ih =>
    match x with
    | .inl (.inl d) =>
      obtain ⟨c, rfl, hp⟩ := hp
      exact counts_le (ih _ (hp _)) (Nat.le_succ c)
    | .inl (.inr d) =>
      obtain ⟨c, rfl, hp⟩ := hp
      exact ⟨c, rfl, fun r => ih _ (hp _)⟩
    | .inr j =>
      obtain ⟨c, rfl, hp⟩ := hp
      exact ⟨c, rfl, fun r => ih _ (hp _)⟩

theorem mem_answers_absorb (e : D → X) (g : D' → X') (f : J → R) (p : Prog ((D ⊕ D') ⊕ J) ((X ⊕ X') ⊕ R) O) (s : R) :
    .inr s ∈ (absorb e p).answers (sideAnswer g f) ↔ .inr s ∈ p.answers (sideAnswer (sideAnswer e g) f) := by
  induction p with
  | ret o => exact ⟨fun h => absurd h List.not_mem_nil, fun h => absurd h List.not_mem_nil⟩
  | ask x k ih =>
    match x with
    | .inl (.inl d) =>
      rw [absorb, ih, Prog.answers, List.mem_cons]
      exact ⟨.inr, fun h => h.resolve_left nofun⟩
    | .inl (.inr d) =>
      rw [absorb, Prog.answers, Prog.answers, List.mem_cons, List.mem_cons, ih]
      exact or_congr ⟨nofun, nofun⟩ Iff.rfl
    | .inr j =>
      rw [absorb, Prog.answers, Prog.answers, List.mem_cons, List.mem_cons, ih]
      exact or_congr ⟨fun h => congrArg _ (Sum.inr.inj h), fun h => congrArg _ (Sum.inr.inj h)⟩ Iff.rfl

end

section

variable {D X D' X' U Q O : Type} [DecidableEq U]

theorem absorb_each {R : Type} (e : D → X) {p : Prog ((D ⊕ D') ⊕ U × Q) ((X ⊕ X') ⊕ R) O} {m : U → Nat} (hp : p.Each m) : (absorb e p).Each m := by
  induction p generalizing m with
  | ret o => trivial
  | ask x k ih =>
    match x with
    | .inl (.inl d) => exact ih _ (hp _)
    | .inl (.inr d) => exact fun r => ih _ (hp _)
    | .inr j =>
      obtain ⟨c, h, hp⟩ := hp
      exact ⟨c, h, fun r => ih _ (hp _)⟩

theorem absorb_rules (e : D → X) (f : Q → Ask) (L : Nat) {p : Prog ((D ⊕ D') ⊕ U × Q) ((X ⊕ X') ⊕ Seen) O} {h : U → List Seen}
    (hp : ByRulesEach f L p h) : ByRulesEach f L (absorb e p) h := by
  induction p generalizing h with
  | ret o => trivial
  | ask x k ih =>
    match x with
    | .inl (.inl d) => exact ih _ (hp _)
    | .inl (.inr d) => exact fun r => ih _ (hp _)
    | .inr j => exact ⟨hp.1, fun s => ih _ (hp.2 s)⟩

theorem decrypted_absorb {J : Type} (e : D → X) (g : D' → X') (f : J → Seen) (p : Prog ((D ⊕ D') ⊕ J) ((X ⊕ X') ⊕ Seen) O) :
    Decrypted ((absorb e p).answers (sideAnswer g f)) ↔ Decrypted (p.answers (sideAnswer (sideAnswer e g) f)) := by
  simp only [Decrypted, mem_answers_absorb]

end

/-! ## Random keys -/

/-- The values of a random function at different points are random. -/
theorem share_points {Z V A : Type} [Fintype Z] [Fintype V] [Fintype A] [Nonempty A] [DecidableEq Z] [DecidableEq V] {z : V → Z}
    (hz : Function.Injective z) (P : (V → A) → Prop) : share (fun F : Z → A => P fun v => F (z v)) = share P := by
  classical
  refine share_regular (C := {x // x ∉ Set.range z} → A) (fun F : Z → A => fun v => F (z v)) (fun F x => F x.1) ?_ ?_ P
  · intro F G h
    obtain ⟨h1, h2⟩ := Prod.mk.inj h
    funext x
    by_cases hx : x ∈ Set.range z
    · obtain ⟨v, rfl⟩ := hx
      exact congrFun h1 v
    · exact congrFun h2 ⟨x, hx⟩
  · have hc : Fintype.card V = Fintype.card {x // x ∈ Set.range z} := Fintype.card_congr (Equiv.ofInjective z hz)
    rw [Fintype.card_fun, Fintype.card_fun, Fintype.card_fun, ← pow_add, hc, Fintype.card_subtype_compl]
    congr 1
    have := Fintype.card_subtype_le fun x => x ∈ Set.range z
    omega

/-- The first bytes of random strings are random. -/
theorem share_take {κ u : Nat} (hκ : κ ≤ 32) (P : (Fin u → Bytes κ) → Prop) :
    share (fun F : Fin u → Bytes 32 => P fun i => ⟨(F i).1.take κ, by rw [List.length_take, (F i).2]; omega⟩) = share P := by
  classical
  have : Nonempty (Bytes (32 - κ)) := ⟨⟨List.replicate _ 0, List.length_replicate⟩⟩
  refine share_regular (C := Fin u → Bytes (32 - κ)) (fun F : Fin u → Bytes 32 => fun i => (⟨(F i).1.take κ, by rw [List.length_take, (F i).2]; omega⟩ : Bytes κ))
    (fun F i => ⟨(F i).1.drop κ, by rw [List.length_drop, (F i).2]⟩) ?_ ?_ P
  · intro F G h
    obtain ⟨h1, h2⟩ := Prod.mk.inj h
    funext i
    have e1 := congrArg Subtype.val (congrFun h1 i)
    have e2 := congrArg Subtype.val (congrFun h2 i)
    refine Subtype.ext ?_
    rw [← List.take_append_drop κ (F i).1, ← List.take_append_drop κ (G i).1]
    exact congrArg₂ _ e1 e2
  · rw [Fintype.card_fun, Fintype.card_fun, Fintype.card_fun, card_bytes, card_bytes, card_bytes, ← mul_pow, ← pow_add]
    congr 2
    omega

end Hacspec.Ideal
