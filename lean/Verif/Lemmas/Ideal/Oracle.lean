import Mathlib.Algebra.BigOperators.Intervals
import Mathlib.Algebra.BigOperators.Ring.Finset
import Mathlib.Algebra.Order.BigOperators.Group.Finset
import Mathlib.Tactic.Ring
import Mathlib.Tactic.ByContra
import Mathlib.Logic.Equiv.Basic
import Verif.Spec.Oracles

/-! # Attacks that ask questions: what they rarely see -/

namespace Hacspec.Ideal

open Spec Finset

section Prog

variable {Q R O P Ω : Type} (ev : Ω → Q → R)

/-- One program after another. -/
def andThen (p : Prog Q R O) (f : O → Prog Q R P) : Prog Q R P :=
  match p with
  | .ret o => f o
  | .ask x k => .ask x fun r => andThen (k r) f

/-- Questions and answers, the last one first, after those of `h`. -/
def trace (ω : Ω) : Prog Q R O → List (Q × R) → List (Q × R)
  | .ret _, h => h
  | .ask x k, h => trace ω (k (ev ω x)) ((x, ev ω x) :: h)

/-- Some answer is `Bad` after the questions and answers before it. -/
def GoesBad (Bad : List (Q × R) → Q → R → Prop) (ω : Ω) : Prog Q R O → List (Q × R) → Prop
  | .ret _, _ => False
  | .ask x k, h => Bad h x (ev ω x) ∨ GoesBad Bad ω (k (ev ω x)) ((x, ev ω x) :: h)

theorem run_andThen (ω : Ω) (p : Prog Q R O) (f : O → Prog Q R P) :
    (andThen p f).run (ev ω) = (f (p.run (ev ω))).run (ev ω) := by
  induction p with
  | ret o => rfl
  | ask x k ih => rw [andThen, Prog.run, ih, Prog.run]

theorem trace_andThen (ω : Ω) (p : Prog Q R O) (f : O → Prog Q R P) (h : List (Q × R)) :
    trace ev ω (andThen p f) h = trace ev ω (f (p.run (ev ω))) (trace ev ω p h) := by
  induction p generalizing h with
  | ret o => rfl
  | ask x k ih => rw [andThen, trace, ih, trace, Prog.run]

theorem within_mono {p : Prog Q R O} {n m : Nat} (h : p.Within n) (hm : n ≤ m) : p.Within m := by
  induction p generalizing n m with
  | ret o => trivial
  | ask x k ih =>
    obtain ⟨i, rfl, h⟩ := h
    exact ⟨m - 1, by omega, fun r => ih r (h r) (by omega)⟩

/-- The questions of two programs; the second need only be short for the results that occur. -/
theorem within_andThen {p : Prog Q R O} {f : O → Prog Q R P} {n m : Nat} (h : p.Within n) (hf : ∀ o, (f o).Within m) :
    (andThen p f).Within (n + m) := by
  induction p generalizing n with
  | ret o => exact within_mono (hf o) (by omega)
  | ask x k ih =>
    obtain ⟨i, rfl, h⟩ := h
    exact ⟨i + m, by omega, fun r => ih r (h r)⟩

theorem subset_trace (ω : Ω) (p : Prog Q R O) (h : List (Q × R)) : h ⊆ trace ev ω p h := by
  induction p generalizing h with
  | ret o => exact fun x hx => hx
  | ask x k ih => exact fun y hy => ih _ _ (List.mem_cons_of_mem _ hy)

/-- What holds before and is kept by every answer that is not bad holds after. -/
theorem trace_inv {Bad : List (Q × R) → Q → R → Prop} {ω : Ω} {I : List (Q × R) → Prop}
    (step : ∀ h x, I h → ¬ Bad h x (ev ω x) → I ((x, ev ω x) :: h)) (p : Prog Q R O) (h : List (Q × R)) (hI : I h)
    (hb : ¬ GoesBad ev Bad ω p h) : I (trace ev ω p h) := by
  induction p generalizing h with
  | ret o => exact hI
  | ask x k ih =>
    rw [GoesBad, not_or] at hb
    exact ih _ _ (step h x hI hb.1) hb.2

variable [Fintype Ω] [Fintype R]

open Classical in
/-- The unknowns that give these answers. -/
noncomputable def consistent (h : List (Q × R)) : Finset Ω := univ.filter fun ω => ∀ p ∈ h, ev ω p.1 = p.2

open Classical in
/-- If bad answers are rare after every history, they are rare in a program. -/
theorem card_goesBad {Bad : List (Q × R) → Q → R → Prop} {S W : Nat} {b : Nat → Nat}
    (hb : ∀ h x, h.length < S → W * ((consistent ev h).filter fun ω => Bad h x (ev ω x)).card ≤ b h.length * (consistent ev h).card)
    (p : Prog Q R O) (h : List (Q × R)) (d : Nat) (hp : p.Within d) (hd : h.length + d ≤ S) :
    W * ((consistent ev h).filter fun ω => GoesBad ev Bad ω p h).card ≤
      (∑ j ∈ Finset.range d, b (h.length + j)) * (consistent ev h).card := by
  induction p generalizing h d with
  | ret o =>
    have : ((consistent ev h).filter fun ω => GoesBad ev Bad ω (.ret o : Prog Q R O) h) = ∅ :=
      Finset.filter_false_of_mem fun ω _ hb => hb
    rw [this]
    simp
  | ask x k ih =>
    obtain ⟨d, rfl, hp⟩ := hp
    have hc : ∀ r, consistent ev ((x, r) :: h) = (consistent ev h).filter fun ω => ev ω x = r := by
      intro r
      ext ω
      simp only [consistent, Finset.mem_filter, Finset.mem_univ, true_and, List.mem_cons, forall_eq_or_imp]
      exact and_comm
    have hsub : ((consistent ev h).filter fun ω => GoesBad ev Bad ω (.ask x k) h) ⊆
        ((consistent ev h).filter fun ω => Bad h x (ev ω x)) ∪
          univ.biUnion fun r => (consistent ev ((x, r) :: h)).filter fun ω => GoesBad ev Bad ω (k r) ((x, r) :: h) := by
      intro ω hω
      obtain ⟨h1, h2⟩ := Finset.mem_filter.mp hω
      rcases h2 with h2 | h2
      · exact Finset.mem_union_left _ (Finset.mem_filter.mpr ⟨h1, h2⟩)
      · refine Finset.mem_union_right _ (Finset.mem_biUnion.mpr ⟨ev ω x, Finset.mem_univ _, Finset.mem_filter.mpr ⟨?_, h2⟩⟩)
        rw [hc]
        exact Finset.mem_filter.mpr ⟨h1, rfl⟩
    have hsum : ∑ r, (consistent ev ((x, r) :: h)).card = (consistent ev h).card := by
      simp only [hc]
      exact (Finset.card_eq_sum_card_fiberwise fun ω _ => Finset.mem_coe.mpr (Finset.mem_univ (ev ω x))).symm
    have h1 := hb h x (by omega)
    calc W * ((consistent ev h).filter fun ω => GoesBad ev Bad ω (.ask x k) h).card
        ≤ W * (((consistent ev h).filter fun ω => Bad h x (ev ω x)).card +
          ∑ r, ((consistent ev ((x, r) :: h)).filter fun ω => GoesBad ev Bad ω (k r) ((x, r) :: h)).card) :=
          Nat.mul_le_mul_left _ ((Finset.card_le_card hsub).trans ((Finset.card_union_le _ _).trans
            (Nat.add_le_add_left Finset.card_biUnion_le _)))
      _ = W * ((consistent ev h).filter fun ω => Bad h x (ev ω x)).card +
          ∑ r, W * ((consistent ev ((x, r) :: h)).filter fun ω => GoesBad ev Bad ω (k r) ((x, r) :: h)).card := by
          rw [Nat.mul_add, Finset.mul_sum]
      _ ≤ b h.length * (consistent ev h).card +
          ∑ r, (∑ j ∈ Finset.range d, b (h.length + 1 + j)) * (consistent ev ((x, r) :: h)).card := by
          refine Nat.add_le_add h1 (Finset.sum_le_sum fun r _ => ?_)
          have := ih r ((x, r) :: h) d (hp r) (by rw [List.length_cons]; omega)
          rwa [List.length_cons] at this
      _ = (∑ j ∈ Finset.range (d + 1), b (h.length + j)) * (consistent ev h).card := by
          rw [← Finset.mul_sum, hsum, ← Nat.add_mul, Finset.sum_range_succ', Nat.add_comm]
          congr 2
          exact Finset.sum_congr rfl fun j _ => by rw [Nat.add_assoc, Nat.add_comm 1]

end Prog

/-! ## Block ciphers -/

section Cipher

variable {K X Ω : Type} [Fintype Ω] [Fintype X]

/-- The block ciphers of `Ω`; the permutation of each key can be replaced freely. -/
structure Ciphers (K X Ω : Type) where
  get : Ω → K → Equiv.Perm X
  put : Ω → K → Equiv.Perm X → Ω
  get_put : ∀ ω k f, get (put ω k f) k = f
  get_other : ∀ ω k f k', k' ≠ k → get (put ω k f) k' = get ω k'
  put_put : ∀ ω k f g, put (put ω k f) k g = put ω k g
  put_get : ∀ ω k, put ω k (get ω k) = ω

variable (C : Ciphers K X Ω)

/-- The answers. -/
abbrev Ciphers.ev (ω : Ω) : Dir K X → X := Dir.answer (C.get ω)

/-- Key, block and enciphered block of a question with its answer. -/
def triple : Dir K X × X → K × X × X
  | (.fwd k x, y) => (k, x, y)
  | (.bwd k y, x) => (k, x, y)

omit [Fintype X] in
theorem mem_consistent {h : List (Dir K X × X)} {ω : Ω} :
    ω ∈ consistent C.ev h ↔ ∀ p ∈ h, C.get ω (triple p).1 (triple p).2.1 = (triple p).2.2 := by
  classical
  rw [consistent, Finset.mem_filter]
  simp only [Finset.mem_univ, true_and]
  refine forall₂_congr fun p _ => ?_
  obtain ⟨d, r⟩ := p
  cases d with
  | fwd k x => exact Iff.rfl
  | bwd k y =>
    show (C.get ω k).symm y = r ↔ C.get ω k r = y
    rw [Equiv.symm_apply_eq, eq_comm]

/-- A question whose answer is not known. -/
def NewTriple (h : List (Dir K X × X)) : Dir K X → Prop
  | .fwd k x => ∀ p ∈ h, ¬ ((triple p).1 = k ∧ (triple p).2.1 = x)
  | .bwd k y => ∀ p ∈ h, ¬ ((triple p).1 = k ∧ (triple p).2.2 = y)

open Classical in
/-- The answers not excluded yet are equally likely. -/
theorem card_answer (h : List (Dir K X × X)) (d : Dir K X) (hd : NewTriple h d) (r : X) :
    (Fintype.card X - h.length) * ((consistent C.ev h).filter fun ω => C.ev ω d = r).card ≤ (consistent C.ev h).card := by
  cases d with
  | fwd k x =>
    let used : Finset X := (h.map fun p => (triple p).2.2).toFinset
    have hu : used.card ≤ h.length := (List.toFinset_card_le _).trans (by rw [List.length_map])
    have hcard : Fintype.card X - h.length ≤ (usedᶜ).card := by rw [Finset.card_compl]; omega
    refine (Nat.mul_le_mul_right _ hcard).trans ?_
    rw [← Finset.card_product]
    refine Finset.card_le_card_of_injOn (fun z => C.put z.2 k ((C.get z.2 k).trans (Equiv.swap r z.1))) ?_ ?_
    · rintro ⟨y, ω⟩ hz
      obtain ⟨hy, hω⟩ := Finset.mem_product.mp (Finset.mem_coe.mp hz)
      obtain ⟨h1, h2⟩ := Finset.mem_filter.mp hω
      have h2 : C.get ω k x = r := h2
      rw [mem_consistent] at h1
      refine Finset.mem_coe.mpr ((mem_consistent C).mpr fun p hp => ?_)
      by_cases hk : (triple p).1 = k
      · have e := h1 p hp
        have hn := hd p hp
        simp only [hk, C.get_put] at e ⊢
        rw [Equiv.trans_apply, e, Equiv.swap_apply_of_ne_of_ne]
        · intro e'
          rw [← h2, ← e] at e'
          exact hn ⟨hk, (C.get ω k).injective e'⟩
        · intro e'
          exact Finset.mem_compl.mp hy (List.mem_toFinset.mpr (List.mem_map.mpr ⟨p, hp, e'⟩))
      · rw [C.get_other _ _ _ _ hk]
        exact h1 p hp
    · rintro ⟨y, ω⟩ hz ⟨y', ω'⟩ hz' e
      have h2 : C.get ω k x = r := (Finset.mem_filter.mp (Finset.mem_product.mp (Finset.mem_coe.mp hz)).2).2
      have h2' : C.get ω' k x = r := (Finset.mem_filter.mp (Finset.mem_product.mp (Finset.mem_coe.mp hz')).2).2
      have e1 := congrArg (fun ω => C.get ω k) e
      simp only [C.get_put] at e1
      have e2 := congrArg (fun f => f x) e1
      simp only [Equiv.trans_apply, h2, h2', Equiv.swap_apply_left] at e2
      subst e2
      have e3 : C.get ω k = C.get ω' k := by
        ext z
        have := congrArg (fun f => f z) e1
        simp only [Equiv.trans_apply] at this
        exact (Equiv.swap r y).injective this
      have e4 := congrArg (fun ω => C.put ω k (C.get ω' k)) e
      simp only [C.put_put, C.put_get] at e4
      rw [← e3, C.put_get] at e4
      rw [e4]
  | bwd k y =>
    let used : Finset X := (h.map fun p => (triple p).2.1).toFinset
    have hu : used.card ≤ h.length := (List.toFinset_card_le _).trans (by rw [List.length_map])
    have hcard : Fintype.card X - h.length ≤ (usedᶜ).card := by rw [Finset.card_compl]; omega
    refine (Nat.mul_le_mul_right _ hcard).trans ?_
    rw [← Finset.card_product]
    refine Finset.card_le_card_of_injOn (fun z => C.put z.2 k ((Equiv.swap r z.1).trans (C.get z.2 k))) ?_ ?_
    · rintro ⟨x, ω⟩ hz
      obtain ⟨hx, hω⟩ := Finset.mem_product.mp (Finset.mem_coe.mp hz)
      obtain ⟨h1, h2⟩ := Finset.mem_filter.mp hω
      have h2 : C.get ω k r = y := ((Equiv.symm_apply_eq _).mp h2).symm
      rw [mem_consistent] at h1
      refine Finset.mem_coe.mpr ((mem_consistent C).mpr fun p hp => ?_)
      by_cases hk : (triple p).1 = k
      · have e := h1 p hp
        have hn := hd p hp
        simp only [hk, C.get_put] at e ⊢
        rw [Equiv.trans_apply, Equiv.swap_apply_of_ne_of_ne, e]
        · intro e'
          rw [e', h2] at e
          exact hn ⟨hk, e.symm⟩
        · intro e'
          exact Finset.mem_compl.mp hx (List.mem_toFinset.mpr (List.mem_map.mpr ⟨p, hp, e'⟩))
      · rw [C.get_other _ _ _ _ hk]
        exact h1 p hp
    · rintro ⟨x, ω⟩ hz ⟨x', ω'⟩ hz' e
      have h2 : C.get ω k r = y := ((Equiv.symm_apply_eq _).mp
        (Finset.mem_filter.mp (Finset.mem_product.mp (Finset.mem_coe.mp hz)).2).2).symm
      have h2' : C.get ω' k r = y := ((Equiv.symm_apply_eq _).mp
        (Finset.mem_filter.mp (Finset.mem_product.mp (Finset.mem_coe.mp hz')).2).2).symm
      have e1 := congrArg (fun ω => C.get ω k) e
      simp only [C.get_put] at e1
      have e2 := congrArg (fun f => f.symm y) e1
      simp only [Equiv.symm_trans_apply, ← h2] at e2
      rw [Equiv.symm_apply_apply, h2, ← h2', Equiv.symm_apply_apply, Equiv.symm_swap, Equiv.symm_swap, Equiv.swap_apply_left,
        Equiv.swap_apply_left] at e2
      subst e2
      have e3 : C.get ω k = C.get ω' k := by
        ext z
        have := congrArg (fun f => f (Equiv.swap r x z)) e1
        simpa only [Equiv.trans_apply, Equiv.swap_apply_self] using this
      have e4 := congrArg (fun ω => C.put ω k (C.get ω' k)) e
      simp only [C.put_put, C.put_get] at e4
      rw [← e3, C.put_get] at e4
      rw [e4]

/-- An answer that is new and that `T` excludes. -/
def BadAnswer (T : List (K × X × X) → Dir K X → X → Prop) (h : List (Dir K X × X)) (d : Dir K X) (r : X) : Prop :=
  NewTriple h d ∧ T (h.map triple) d r

open Classical in
/-- Answers that are rare for every question are rare in an attack on a block cipher. -/
theorem card_badAnswer {O : Type} {T : List (K × X × X) → Dir K X → X → Prop} {b : Nat → Nat}
    (hT : ∀ ts d, (univ.filter fun r => T ts d r).card ≤ b ts.length) (p : Prog (Dir K X) X O) (s : Nat) (hp : p.Within s) :
    (Fintype.card X - s) * (univ.filter fun ω => GoesBad C.ev (BadAnswer T) ω p []).card ≤
      (∑ j ∈ Finset.range s, b j) * Fintype.card Ω := by
  have hall : consistent C.ev [] = (univ : Finset Ω) := by
    rw [consistent, Finset.filter_true_of_mem]
    intro ω _ p hp
    exact absurd hp List.not_mem_nil
  have := card_goesBad C.ev (Bad := BadAnswer T) (S := s) (W := Fintype.card X - s) (b := b) ?_ p [] s hp (by simp)
  · rw [hall] at this
    simpa using this
  · intro h d hs
    by_cases hd : NewTriple h d
    · have hB : (univ.filter fun r => T (h.map triple) d r).card ≤ b h.length := by
        have := hT (h.map triple) d
        rwa [List.length_map] at this
      have hsub : ((consistent C.ev h).filter fun ω => BadAnswer T h d (C.ev ω d)) ⊆
          (univ.filter fun r => T (h.map triple) d r).biUnion fun r =>
            (consistent C.ev h).filter fun ω => C.ev ω d = r := by
        intro ω hω
        obtain ⟨hc, hb⟩ := Finset.mem_filter.mp hω
        exact Finset.mem_biUnion.mpr ⟨C.ev ω d, Finset.mem_filter.mpr ⟨Finset.mem_univ _, hb.2⟩, Finset.mem_filter.mpr ⟨hc, rfl⟩⟩
      refine (Nat.mul_le_mul_left _ ((Finset.card_le_card hsub).trans Finset.card_biUnion_le)).trans ?_
      rw [Finset.mul_sum]
      refine (Finset.sum_le_card_nsmul _ _ (consistent C.ev h).card fun r _ => ?_).trans ?_
      · exact (Nat.mul_le_mul_right _ (by omega)).trans (card_answer C h d hd r)
      · rw [nsmul_eq_mul, Nat.cast_id]
        exact Nat.mul_le_mul_right _ hB
    · rw [Finset.filter_false_of_mem fun ω _ hb => hd hb.1]
      simp

/-- An answer that is new and gives a triple that `T` excludes. -/
abbrev BadTriple (T : List (K × X × X) → K × X × X → Prop) : List (Dir K X × X) → Dir K X → X → Prop :=
  BadAnswer fun ts d r => T ts (triple (d, r))

open Classical in
/-- Triples that are rare for every question are rare in an attack on a block cipher. -/
theorem card_badTriple {O : Type} {T : List (K × X × X) → K × X × X → Prop} {b : Nat → Nat}
    (h1 : ∀ ts k x, (univ.filter fun y => T ts (k, x, y)).card ≤ b ts.length)
    (h2 : ∀ ts k y, (univ.filter fun x => T ts (k, x, y)).card ≤ b ts.length) (p : Prog (Dir K X) X O) (s : Nat) (hp : p.Within s) :
    (Fintype.card X - s) * (univ.filter fun ω => GoesBad C.ev (BadTriple T) ω p []).card ≤
      (∑ j ∈ Finset.range s, b j) * Fintype.card Ω := by
  refine card_badAnswer C (fun ts d => ?_) p s hp
  cases d with
  | fwd k x => exact h1 ts k x
  | bwd k y => exact h2 ts k y

end Cipher

end Hacspec.Ideal
