import Verif.Lemmas.Ideal.Extract
import Verif.Lemmas.Ideal.Strategy
import Verif.Spec.Users

/-! # Several users -/

namespace Hacspec.Ideal

open Spec Finset

/-! ## Independent keys -/

section

variable {U A : Type} [Fintype U] [DecidableEq U] [Fintype A] [Nonempty A]

/-- One value can be chosen last. -/
theorem share_update (i : U) (P : (U → A) → Prop) : share P = share fun x : (U → A) × A => P (Function.update x.1 i x.2) := by
  refine (share_regular (fun x : (U → A) × A => Function.update x.1 i x.2) (fun x => x.1 i) ?_ (Fintype.card_prod _ _) P).symm
  rintro ⟨E, a⟩ ⟨E', a'⟩ h
  obtain ⟨h1, h2⟩ := Prod.mk.inj h
  have e : a = a' := by have := congrFun h1 i; rwa [Function.update_self, Function.update_self] at this
  refine Prod.ext (funext fun j => ?_) e
  by_cases hj : j = i
  · rw [hj]; exact h2
  · have := congrFun h1 j
    rwa [Function.update_of_ne hj, Function.update_of_ne hj] at this

/-- One value alone. -/
theorem share_at (i : U) (P : A → Prop) : share (fun k : U → A => P (k i)) = share P := by
  rw [share_update i]
  simp only [Function.update_self]
  exact share_snd P

/-- One of several. -/
theorem share_exists_le {Ω : Type} [Fintype Ω] (P : U → Ω → Prop) : share (fun ω => ∃ i, P i ω) ≤ ∑ i, share (P i) := by
  have : ∀ T : Finset U, share (fun ω => ∃ i ∈ T, P i ω) ≤ ∑ i ∈ T, share (P i) := by
    intro T
    induction T using Finset.induction_on with
    | empty => rw [share_false fun ω ⟨i, hi, _⟩ => absurd hi (Finset.notMem_empty i), Finset.sum_empty]
    | insert i T hi ih =>
      rw [Finset.sum_insert hi]
      refine (share_le_add fun ω ⟨j, hj, h⟩ => ?_).trans (add_le_add_right ih _)
      rcases Finset.mem_insert.mp hj with rfl | hj
      · exact .inl h
      · exact .inr ⟨j, hj, h⟩
  exact (share_mono fun ω ⟨i, h⟩ => ⟨i, Finset.mem_univ i, h⟩).trans (this univ)

/-- Two values are seldom equal. -/
theorem share_same {i j : U} (h : i ≠ j) : share (fun k : U → A => k i = k j) ≤ 1 / Fintype.card A := by
  rw [share_update i]
  refine share_prod_le (by positivity) fun k => ?_
  simp only [Function.update_self, Function.update_of_ne h.symm]
  exact (share_eq (k j)).le

end

/-- All values are different, mostly. -/
theorem share_not_injective {A : Type} [Fintype A] [Nonempty A] (u : Nat) :
    share (fun k : Fin u → A => ¬ Function.Injective k) ≤ u * (u - 1) / (2 * Fintype.card A) := by
  classical
  have h1 := share_exists_mem ((univ : Finset (Fin u × Fin u)).filter fun x => x.1 < x.2).toList
    (P := fun x (k : Fin u → A) => x.1 < x.2 ∧ k x.1 = k x.2) (ε := 1 / Fintype.card A) fun x => by
      by_cases hx : x.1 < x.2
      · exact (share_mono fun k h => h.2).trans (share_same hx.ne)
      · rw [share_false fun k h => hx h.1]
        positivity
  refine (share_mono fun k hk => ?_).trans (h1.trans (le_of_eq ?_))
  · rw [Function.Injective] at hk
    push Not at hk
    obtain ⟨i, j, e, hne⟩ := hk
    rcases lt_or_gt_of_ne hne with h | h
    · exact ⟨(i, j), Finset.mem_toList.mpr (Finset.mem_filter.mpr ⟨Finset.mem_univ _, h⟩), h, e⟩
    · exact ⟨(j, i), Finset.mem_toList.mpr (Finset.mem_filter.mpr ⟨Finset.mem_univ _, h⟩), h, e.symm⟩
  · rw [Finset.length_toList]
    have hc : (2 : ℚ) * ((univ : Finset (Fin u × Fin u)).filter fun x => x.1 < x.2).card = u * (u - 1) := by
      have e : ((univ : Finset (Fin u × Fin u)).filter fun x => x.1 < x.2).card = ∑ j ∈ range u, j := by
        rw [Finset.card_eq_sum_card_fiberwise (f := Prod.snd) (t := univ) fun x _ => Finset.mem_coe.mpr (Finset.mem_univ _)]
        rw [← Fin.sum_univ_eq_sum_range (fun j => j) u]
        refine Finset.sum_congr rfl fun j _ => ?_
        rw [← Fin.card_Iio j, ← Finset.card_map ⟨fun i : Fin u => (i, j), fun a b h => (Prod.mk.inj h).1⟩]
        congr 1
        ext ⟨a, b⟩
        simp only [Finset.mem_filter, Finset.mem_univ, true_and, Finset.mem_map, Finset.mem_Iio]
        constructor
        · rintro ⟨h, rfl⟩
          exact ⟨a, h, rfl⟩
        · rintro ⟨c, h, e⟩
          obtain ⟨rfl, rfl⟩ := Prod.mk.inj e
          exact ⟨h, rfl⟩
      rw [e]
      have : ∀ n : Nat, (2 : ℚ) * ((∑ j ∈ range n, j : ℕ) : ℚ) = n * (n - 1) := by
        intro n
        induction n with
        | zero => simp
        | succ n ih =>
          rw [Finset.sum_range_succ, Nat.cast_add, mul_add, ih]
          push_cast
          ring
      exact this u
    rw [← hc]
    have : (Fintype.card A : ℚ) ≠ 0 := Nat.cast_ne_zero.mpr Fintype.card_ne_zero
    field_simp

/-! ## The questions to one user -/

section

variable {D X U Q R O : Type} [DecidableEq U]

/-- What is asked of the user `i` if all other answers are known. -/
def only (g : D → X) (f : U × Q → R) (i : U) : Prog (D ⊕ U × Q) (X ⊕ R) O → Prog (Empty ⊕ Q) (Empty ⊕ R) O
  | .ret o => .ret o
  | .ask (.inl d) k => only g f i (k (.inl (g d)))
  | .ask (.inr x) k =>
    if x.1 = i then .ask (.inr x.2) fun r => match r with | .inr s => only g f i (k (.inr s))
    else only g f i (k (.inr (f x)))

/-- The answers to the other questions matter only. -/
theorem only_congr (g : D → X) {f f' : U × Q → R} {i : U} (h : ∀ x, x.1 ≠ i → f x = f' x) (p : Prog (D ⊕ U × Q) (X ⊕ R) O) :
    only g f i p = only g f' i p := by
  induction p with
  | ret o => rfl
  | ask x k ih =>
    cases x with
    | inl d => exact ih _
    | inr x =>
      rw [only, only]
      by_cases hx : x.1 = i
      · rw [if_pos hx, if_pos hx]
        refine congrArg _ (funext fun r => ?_)
        cases r with
        | inl e => exact e.elim
        | inr s => exact ih _
      · rw [if_neg hx, if_neg hx, h x hx]
        exact ih _

theorem run_only (g : D → X) (f : U × Q → R) (i : U) (p : Prog (D ⊕ U × Q) (X ⊕ R) O) :
    (only g f i p).run (sideAnswer Empty.elim fun x => f (i, x)) = p.run (sideAnswer g f) := by
  induction p with
  | ret o => rfl
  | ask x k ih =>
    cases x with
    | inl d => exact ih _
    | inr x =>
      rw [only]
      by_cases hx : x.1 = i
      · rw [if_pos hx]
        have : f (i, x.2) = f x := by rw [← hx]
        show (only g f i (k (.inr (f (i, x.2))))).run _ = (k (.inr (f x))).run _
        rw [this]
        exact ih _
      · rw [if_neg hx]
        exact ih _

/-- Each answer is an answer of some user. -/
theorem answers_only (g : D → X) (f : U × Q → R) (p : Prog (D ⊕ U × Q) (X ⊕ R) O) {s : R} (hs : .inr s ∈ p.answers (sideAnswer g f)) :
    ∃ i, .inr s ∈ (only g f i p).answers (sideAnswer Empty.elim fun x => f (i, x)) := by
  induction p with
  | ret o => exact absurd hs List.not_mem_nil
  | ask x k ih =>
    cases x with
    | inl d =>
      rcases List.mem_cons.mp hs with h | h
      · exact absurd h (by simp [sideAnswer])
      · exact ih _ h
    | inr x =>
      have step : ∀ i, .inr s ∈ (only g f i (k (.inr (f x)))).answers (sideAnswer Empty.elim fun x => f (i, x)) →
          .inr s ∈ (only g f i (.ask (.inr x) k)).answers (sideAnswer Empty.elim fun x => f (i, x)) := by
        intro i h
        rw [only]
        by_cases hx : x.1 = i
        · rw [if_pos hx]
          have e : f (i, x.2) = f x := by rw [← hx]
          refine List.mem_cons_of_mem _ ?_
          show .inr s ∈ (only g f i (k (.inr (f (i, x.2))))).answers _
          rwa [e]
        · rwa [if_neg hx]
      rcases List.mem_cons.mp hs with h | h
      · refine ⟨x.1, ?_⟩
        rw [only, if_pos rfl]
        exact List.mem_cons.mpr (.inl (congrArg Sum.inr (Sum.inr.inj h)))
      · obtain ⟨i, hi⟩ := ih _ h
        exact ⟨i, step i hi⟩

theorem only_counts (g : D → X) (f : U × Q → R) (i : U) {p : Prog (D ⊕ U × Q) (X ⊕ R) O} {m : U → Nat} (h : p.Each m) :
    (only g f i p).Counts 0 (m i) := by
  induction p generalizing m with
  | ret o => trivial
  | ask x k ih =>
    cases x with
    | inl d => exact ih _ (h _)
    | inr x =>
      obtain ⟨c, hc, h⟩ := h
      rw [only]
      by_cases hx : x.1 = i
      · rw [if_pos hx]
        refine ⟨c, by rw [← hx, hc], fun r => ?_⟩
        cases r with
        | inl e => exact e.elim
        | inr s =>
          have := ih _ (h (.inr s))
          rwa [hx, Function.update_self] at this
      · rw [if_neg hx]
        have := ih _ (h (.inr (f x)))
        rwa [Function.update_of_ne (Ne.symm hx)] at this

theorem only_rules (g : D → X) (f : U × Q → Seen) (i : U) (a : Q → Ask) (L : Nat) {p : Prog (D ⊕ U × Q) (X ⊕ Seen) O} {h : U → List Seen}
    (hp : ByRulesEach a L p h) : ByRules a L (only g f i p) (h i) := by
  induction p generalizing h with
  | ret o => trivial
  | ask x k ih =>
    cases x with
    | inl d => exact ih _ (hp _)
    | inr x =>
      rw [only]
      by_cases hx : x.1 = i
      · rw [if_pos hx]
        refine ⟨hx ▸ hp.1, fun s => ?_⟩
        have := ih _ (hp.2 s)
        rwa [hx, Function.update_self] at this
      · rw [if_neg hx]
        have := ih _ (hp.2 (f x))
        rwa [Function.update_of_ne (Ne.symm hx)] at this

theorem record_rulesEach (f : Q → Ask) (L : Nat) {p : Prog (D ⊕ U × Q) (X ⊕ Seen) O} {h : U → List Seen} (hp : ByRulesEach f L p h)
    (h' : List (X ⊕ Seen)) : ByRulesEach f L (record p h') h := by
  induction p generalizing h h' with
  | ret o => trivial
  | ask x k ih =>
    cases x with
    | inl d => exact fun x => ih _ (hp x) _
    | inr x => exact ⟨hp.1, fun s => ih _ (hp.2 s) _⟩

end

/-! ## From one user to several -/

section

variable {D X Ω O : Type} {u : Nat} [Fintype Ω] [Nonempty Ω] [DecidableEq Ω]

/-- Forgeries against several users, from forgeries against one. -/
theorem users_forge (S : Aead Ω) (g : D → X) {p : Prog (D ⊕ Fin u × Ask) (X ⊕ Seen) O} {L : Nat} {m : Fin u → Nat} (hm : p.Each m)
    (hp : ByRulesEach id L p fun _ => []) {β : Fin u → ℚ} (hpos : ∀ i, 0 ≤ β i)
    (hβ : ∀ i (p' : Prog (Empty ⊕ Ask) (Empty ⊕ Seen) O), p'.Counts 0 (m i) → ByRules id L p' [] →
      share (fun F => Decrypted (p'.answers (sideAnswer Empty.elim fun x => S.answer F x))) ≤ β i) :
    share (fun Fs : Fin u → Ω => Decrypted (p.answers (sideAnswer g fun x => S.answer (Fs x.1) x.2))) ≤ ∑ i, β i := by
  refine (share_mono (Q := fun Fs : Fin u → Ω => ∃ i, Decrypted ((only g (fun x => S.answer (Fs x.1) x.2) i p).answers
    (sideAnswer Empty.elim fun x => S.answer (Fs i) x))) ?_).trans ?_
  · rintro Fs ⟨iv, aad, c, t, m, hm⟩
    obtain ⟨i, hi⟩ := answers_only _ _ p hm
    exact ⟨i, iv, aad, c, t, m, hi⟩
  · refine (share_exists_le _).trans (Finset.sum_le_sum fun i _ => ?_)
    rw [share_update i]
    refine share_prod_le (hpos i) fun Fs => ?_
    have e : ∀ F : Ω, only g (fun x => S.answer (Function.update Fs i F x.1) x.2) i p = only g (fun x => S.answer (Fs x.1) x.2) i p :=
      fun F => only_congr _ (fun x hx => by rw [Function.update_of_ne hx]) p
    simp only [e, Function.update_self]
    exact hβ i _ (only_counts _ _ i hm) (only_rules _ _ i id L hp)

/-- The users in `T` take the second message. -/
def chosen (T : Finset (Fin u)) (x : Fin u × Pair) : Ask := if x.1 ∈ T then x.2.snd else x.2.fst

/-- Choices between messages with several users, from choices with one. -/
theorem users_choose (S : Aead Ω) (g : D → X) {p : Prog (D ⊕ Fin u × Pair) (X ⊕ Seen) O} {L : Nat} {m : Fin u → Nat} (hm : p.Each m)
    (hp : ByRulesEach Pair.fst L p fun _ => []) {β : Fin u → ℚ} (acc : O → Prop)
    (hβ : ∀ i (p' : Prog (Empty ⊕ Pair) (Empty ⊕ Seen) O), p'.Counts 0 (m i) → ByRules Pair.fst L p' [] →
      share (fun F => acc (p'.run (sideAnswer Empty.elim fun x => S.answer F x.fst))) ≤
        share (fun F => acc (p'.run (sideAnswer Empty.elim fun x => S.answer F x.snd))) + β i) (T : Finset (Fin u)) :
    share (fun Fs : Fin u → Ω => acc (p.run (sideAnswer g fun x => S.answer (Fs x.1) x.2.fst))) ≤
      share (fun Fs : Fin u → Ω => acc (p.run (sideAnswer g fun x => S.answer (Fs x.1) (chosen T x)))) + ∑ i ∈ T, β i := by
  induction T using Finset.induction_on with
  | empty => simp [chosen]
  | insert i T hi ih =>
    refine ih.trans ?_
    rw [Finset.sum_insert hi, ← add_assoc]
    refine add_le_add_left ?_ _
    rw [share_update i, share_update i (A := Ω)]
    refine share_prod_add fun Fs => ?_
    let p' := only g (fun x => S.answer (Fs x.1) (chosen T x)) i p
    have e : ∀ (T' : Finset (Fin u)) (F : Ω), (∀ j, j ≠ i → (j ∈ T' ↔ j ∈ T)) →
        p.run (sideAnswer g fun x => S.answer (Function.update Fs i F x.1) (chosen T' x)) =
          p'.run (sideAnswer Empty.elim fun x => S.answer F (chosen T' (i, x))) := by
      intro T' F hT
      have := run_only g (fun x => S.answer (Function.update Fs i F x.1) (chosen T' x)) i p
      rw [only_congr _ (f' := fun x => S.answer (Fs x.1) (chosen T x)) fun x hx => ?_] at this
      · rw [← this]
        simp only [Function.update_self]
        rfl
      · simp only [Function.update_of_ne hx, chosen, hT x.1 hx]
    have h := hβ i p' (only_counts _ _ i hm) (only_rules _ _ i Pair.fst L hp)
    refine le_trans (le_of_eq (share_congr fun F => ?_)) (h.trans (le_of_eq (congrArg (· + _) (share_congr fun F => ?_))))
    · rw [e T F fun j _ => Iff.rfl]
      simp only [chosen, if_neg hi]
    · rw [e (insert i T) F fun j hj => by simp [hj]]
      simp only [chosen, if_pos (Finset.mem_insert_self i T)]

end

/-! ## Encryption by blocks -/

section

variable {D X U Q J Y O : Type} [DecidableEq J] [DecidableEq U] (S : Aead (J → Y)) (pts : Ask → List J) (d : Y) (f : Q → Ask) (L : Nat)

/-- A program that asks for blocks of the users and computes the answers itself. -/
def byBlocksEach : Prog (D ⊕ U × Q) (X ⊕ Seen) O → Prog (D ⊕ U × J) (X ⊕ Y) O
  | .ret o => .ret o
  | .ask (.inl z) k => .ask (.inl z) fun r => byBlocksEach (k (match r with | .inl x => .inl x | .inr _ => .inr .stopped))
  | .ask (.inr x) k => askAll (((pts (f x.2)).take L).map fun j => (x.1, j)) [] fun t =>
      byBlocksEach (k (.inr (S.answer (fun j => tableFn d t (x.1, j)) (f x.2))))

variable {S pts f L}

theorem run_byBlocksEach (hloc : ∀ a h, a.Allowed L h → ∀ F F' : J → Y, (∀ j ∈ pts a, F j = F' j) → S.answer F a = S.answer F' a)
    (hlen : ∀ a h, a.Allowed L h → (pts a).length ≤ L) (g : D → X) (F : U × J → Y) {p : Prog (D ⊕ U × Q) (X ⊕ Seen) O} {h : U → List Seen}
    (hp : ByRulesEach f L p h) :
    (byBlocksEach S pts d f L p).run (sideAnswer g F) = p.run (sideAnswer g fun x => S.answer (fun j => F (x.1, j)) (f x.2)) := by
  induction p generalizing h with
  | ret o => rfl
  | ask x k ih =>
    cases x with
    | inl z => exact ih _ (hp (g z))
    | inr x =>
      have ht : (pts (f x.2)).take L = pts (f x.2) := List.take_of_length_le (hlen _ _ hp.1)
      obtain ⟨t, h1, h2, h3⟩ := run_askAll g F ((pts (f x.2)).map fun j => (x.1, j)) []
        (fun t => byBlocksEach S pts d f L (k (.inr (S.answer (fun j => tableFn d t (x.1, j)) (f x.2)))))
        (fun u hu => absurd hu List.not_mem_nil)
      have e : S.answer (fun j => tableFn d t (x.1, j)) (f x.2) = S.answer (fun j => F (x.1, j)) (f x.2) :=
        hloc _ _ hp.1 _ _ fun j hj => tableFn_eq d h2 (h3 (x.1, j) (.inl (List.mem_map.mpr ⟨j, hj, rfl⟩)))
      rw [e] at h1
      rw [byBlocksEach, ht]
      exact h1.trans (ih _ (hp.2 _))

theorem byBlocksEach_counts {p : Prog (D ⊕ U × Q) (X ⊕ Seen) O} {q n : Nat} (hc : p.Counts q n) :
    (byBlocksEach S pts d f L p).Counts q (n * L) := by
  induction p generalizing q n with
  | ret o => trivial
  | ask x k ih =>
    cases x with
    | inl x =>
      obtain ⟨q, rfl, h⟩ := hc
      exact ⟨q, rfl, fun r => ih _ (h _)⟩
    | inr x =>
      obtain ⟨n, rfl, h⟩ := hc
      rw [Nat.succ_mul]
      exact askAll_counts _ (by rw [List.length_map]; exact List.length_take_le ..) _ fun t => ih _ (h _)

end

end Hacspec.Ideal
