import Mathlib.Algebra.Group.Prod
import Mathlib.Algebra.Module.ZMod
import Mathlib.Algebra.Field.ZMod
import Mathlib.GroupTheory.OrderOfElement
import Verif.Lemmas.Ideal.Shares
import Verif.Lemmas.Ideal.Indifferent
import Verif.Spec.Generic

/-! # Attacks that use nothing but the group -/

namespace Hacspec.Ideal

open Spec Finset

variable {Ω G G' O : Type} [Fintype Ω] [AddCommGroup G] [AddCommGroup G']

theorem map_getD_zero (f : G' →+ G) (r : List G') (i : Nat) : (r.map f).getD i 0 = f (r.getD i 0) := by
  rw [List.getD_eq_getElem?_getD, List.getD_eq_getElem?_getD, List.getElem?_map]
  cases r[i]? with
  | none => exact (map_zero f).symm
  | some x => rfl

/-- The run in a group of formal expressions is the run in the group, except for accidental equalities. -/
theorem generic_run (φ : Ω → G' →+ G) {ε : ℚ} (h0 : 0 ≤ ε) (hε : ∀ v, v ≠ 0 → share (fun ω => φ ω v = 0) ≤ ε) (a : GroupAttack O)
    {e : Nat} (ha : a.Compares e) (r : List G') :
    share (fun ω => a.run (r.map (φ ω)) ≠ ((a.run r).1, (a.run r).2.map (φ ω))) ≤ e * ε := by
  induction a generalizing e r with
  | ret o =>
    rw [share_false fun ω h => h rfl]
    positivity
  | combine c d i j k ih =>
    refine le_trans (le_of_eq (share_congr fun ω => ?_)) (ih ha (r ++ [c • r.getD i 0 + d • r.getD j 0]))
    rw [GroupAttack.run, GroupAttack.run, List.map_append, List.map_singleton, map_add, map_zsmul, map_zsmul, map_getD_zero, map_getD_zero]
  | compare i j k ih =>
    obtain ⟨e, rfl, ha⟩ := ha
    classical
    by_cases h : r.getD i 0 = r.getD j 0
    · refine le_trans (le_of_eq (share_congr fun ω => ?_)) ((ih _ (ha true) r).trans ?_)
      · rw [GroupAttack.run, GroupAttack.run, map_getD_zero, map_getD_zero, h, decide_eq_true rfl, decide_eq_true rfl]
      · push_cast
        linarith
    · refine (share_le_add (Q := fun ω => φ ω (r.getD i 0 - r.getD j 0) = 0)
        (R := fun ω => (k false).run (r.map (φ ω)) ≠ (((k false).run r).1, ((k false).run r).2.map (φ ω))) fun ω hω => ?_).trans ?_
      · by_cases hc : φ ω (r.getD i 0) = φ ω (r.getD j 0)
        · exact .inl (by rw [map_sub, hc, sub_self])
        · rw [GroupAttack.run, GroupAttack.run, map_getD_zero, map_getD_zero, decide_eq_false h, decide_eq_false hc] at hω
          exact .inr hω
      · have h1 := hε _ (sub_ne_zero.mpr h)
        have h2 := ih _ (ha false) r
        push_cast
        linarith

section

variable {ℓ : Nat} [Fact ℓ.Prime]

/-- Multiples of an element of prime order. -/
def timesOf (B : G) (hB : ℓ • B = 0) : ZMod ℓ →+ G :=
  ZMod.lift ℓ ⟨(zmultiplesHom G) B, by rw [zmultiplesHom_apply, natCast_zsmul]; exact hB⟩

theorem timesOf_natCast (B : G) (hB : ℓ • B = 0) (n : Nat) : timesOf B hB (n : ZMod ℓ) = n • B := by
  have h : timesOf B hB ((n : Int) : ZMod ℓ) = (n : Int) • B := ZMod.lift_coe ℓ _ _
  rw [Int.cast_natCast, natCast_zsmul] at h
  exact h

theorem timesOf_inj (B : G) (hB : ℓ • B = 0) (hB0 : B ≠ 0) : Function.Injective (timesOf B hB) := by
  rw [injective_iff_map_eq_zero]
  intro x hx
  have e : x = ((x.val : Nat) : ZMod ℓ) := (ZMod.natCast_zmod_val x).symm
  rw [e, timesOf_natCast] at hx
  have ho : addOrderOf B = ℓ := addOrderOf_eq_prime hB hB0
  rw [← addOrderOf_dvd_iff_nsmul_eq_zero, ho] at hx
  rw [e]
  exact (ZMod.natCast_eq_zero_iff _ _).mpr hx

variable (B : G) (hB : ℓ • B = 0) (hB0 : B ≠ 0)

/-- Expressions `P + b s B`. -/
def evalOne (s : ZMod ℓ) : G × ZMod ℓ →+ G where
  toFun v := v.1 + timesOf B hB (v.2 * s)
  map_zero' := by simp
  map_add' u v := by
    rw [Prod.fst_add, Prod.snd_add, add_mul, map_add]
    abel

include hB0 in
theorem evalOne_zero {s : Ω → ZMod ℓ} {ε : ℚ} (h0 : 0 ≤ ε) (hε : ∀ c, share (fun ω => s ω = c) ≤ ε) (v : G × ZMod ℓ) (hv : v ≠ 0) :
    share (fun ω => evalOne B hB (s ω) v = 0) ≤ ε := by
  obtain ⟨P, b⟩ := v
  by_cases hb : b = 0
  · subst hb
    rw [share_false fun ω h => hv ?_]
    · exact h0
    · have h : P + timesOf B hB (0 * s ω) = 0 := h
      rw [zero_mul, map_zero, add_zero] at h
      rw [h]
      rfl
  · by_cases hP : ∃ c, timesOf B hB c = -P
    · obtain ⟨c, hc⟩ := hP
      refine (share_mono fun ω h => ?_).trans (hε (b⁻¹ * c))
      have h : P + timesOf B hB (b * s ω) = 0 := h
      have h : timesOf B hB (b * s ω) = timesOf B hB c := by rw [hc]; exact (neg_eq_of_add_eq_zero_right h).symm
      rw [← timesOf_inj B hB hB0 h, ← mul_assoc, inv_mul_cancel₀ hb, one_mul]
    · rw [share_false fun ω h => hP ⟨b * s ω, ?_⟩]
      · exact h0
      · exact (neg_eq_of_add_eq_zero_right h).symm

include hB hB0 in
/-- Discrete logarithms, with `k` candidates at the end: each comparison and each candidate excludes one residue. -/
theorem generic_log {s : Ω → Nat} {ε : ℚ} (h0 : 0 ≤ ε) (hε : ∀ c : ZMod ℓ, share (fun ω => (s ω : ZMod ℓ) = c) ≤ ε)
    (a : GroupAttack O) {e : Nat} (ha : a.Compares e) (pub : List G) (f : O → List (ZMod ℓ)) {k : Nat} (hk : ∀ o, (f o).length ≤ k) :
    share (fun ω => (s ω : ZMod ℓ) ∈ f (a.run (pub ++ [s ω • B])).1) ≤ (e + k) * ε := by
  let r : List (G × ZMod ℓ) := pub.map (fun P => (P, 0)) ++ [(0, 1)]
  have hr : ∀ ω, r.map (evalOne B hB (s ω)) = pub ++ [s ω • B] := by
    intro ω
    rw [List.map_append, List.map_map, List.map_singleton]
    congr 1
    · refine (List.map_congr_left fun P _ => ?_).trans (List.map_id pub)
      show P + timesOf B hB (0 * (s ω : ZMod ℓ)) = P
      rw [zero_mul, map_zero, add_zero]
    · show [0 + timesOf B hB (1 * (s ω : ZMod ℓ))] = _
      rw [one_mul, timesOf_natCast, zero_add]
  have h1 := generic_run (fun ω => evalOne B hB (s ω)) h0 (evalOne_zero B hB hB0 h0 hε) a ha r
  simp only [hr] at h1
  have h2 : share (fun ω => ∃ c ∈ f (a.run r).1, (s ω : ZMod ℓ) = c) ≤ (f (a.run r).1).length * ε := share_exists_mem _ hε
  have h3 : ((f (a.run r).1).length : ℚ) ≤ k := Nat.cast_le.mpr (hk _)
  refine (share_le_add (Q := fun ω => a.run (pub ++ [s ω • B]) ≠ ((a.run r).1, (a.run r).2.map (evalOne B hB (s ω))))
    (R := fun ω => ∃ c ∈ f (a.run r).1, (s ω : ZMod ℓ) = c) fun ω hω => ?_).trans ?_
  · by_cases h : a.run (pub ++ [s ω • B]) = ((a.run r).1, (a.run r).2.map (evalOne B hB (s ω)))
    · refine .inr ?_
      rw [h] at hω
      exact ⟨_, hω, rfl⟩
    · exact .inl h
  · have := mul_le_mul_of_nonneg_right h3 h0
    linarith

/-- Expressions `P + b s B + c t B`. -/
def evalTwo (s t : ZMod ℓ) : (G × ZMod ℓ) × ZMod ℓ →+ G where
  toFun v := v.1.1 + timesOf B hB (v.1.2 * s + v.2 * t)
  map_zero' := by simp
  map_add' u v := by
    rw [Prod.fst_add, Prod.snd_add, Prod.fst_add, Prod.snd_add, add_mul, add_mul, add_add_add_comm, map_add]
    abel

variable {Ω' : Type} [Fintype Ω'] [Nonempty Ω] [Nonempty Ω']

include hB0 in
theorem evalTwo_zero {s : Ω → ZMod ℓ} {t : Ω' → ZMod ℓ} {ε : ℚ} (h0 : 0 ≤ ε) (hs : ∀ c, share (fun ω => s ω = c) ≤ ε)
    (ht : ∀ c, share (fun ω => t ω = c) ≤ ε) (v : (G × ZMod ℓ) × ZMod ℓ) (hv : v ≠ 0) :
    share (fun ω : Ω × Ω' => evalTwo B hB (s ω.1) (t ω.2) v = 0) ≤ ε := by
  obtain ⟨⟨P, b⟩, c⟩ := v
  by_cases hc : c = 0
  · subst hc
    have e : ∀ ω : Ω × Ω', evalTwo B hB (s ω.1) (t ω.2) ((P, b), 0) = evalOne B hB (s ω.1) (P, b) := by
      intro ω
      show P + timesOf B hB (b * s ω.1 + 0 * t ω.2) = P + timesOf B hB (b * s ω.1)
      rw [zero_mul, add_zero]
    simp only [e]
    rw [share_fst fun ω => evalOne B hB (s ω) (P, b) = 0]
    exact evalOne_zero B hB hB0 h0 hs _ fun h => hv (by rw [h]; rfl)
  · refine share_prod_le h0 fun ω => ?_
    have e : ∀ ω', evalTwo B hB (s ω) (t ω') ((P, b), c) = evalOne B hB (t ω') (P + timesOf B hB (b * s ω), c) := by
      intro ω'
      show P + timesOf B hB (b * s ω + c * t ω') = P + timesOf B hB (b * s ω) + timesOf B hB (c * t ω')
      rw [map_add, add_assoc]
    simp only [e]
    exact evalOne_zero B hB hB0 h0 ht _ fun h => hc (congrArg Prod.snd h)

include hB0 in
/-- A given expression is rarely the common secret. -/
theorem evalTwo_product {s : Ω → ZMod ℓ} {t : Ω' → ZMod ℓ} {ε : ℚ} (h0 : 0 ≤ ε) (hs : ∀ c, share (fun ω => s ω = c) ≤ ε)
    (ht : ∀ c, share (fun ω => t ω = c) ≤ ε) (v : (G × ZMod ℓ) × ZMod ℓ) (d : ZMod ℓ) (hd : d ≠ 0) :
    share (fun ω : Ω × Ω' => evalTwo B hB (s ω.1) (t ω.2) v = timesOf B hB (d * (s ω.1 * t ω.2))) ≤ 2 * ε := by
  obtain ⟨⟨P, b⟩, c⟩ := v
  refine (share_le_add (Q := fun ω : Ω × Ω' => s ω.1 = d⁻¹ * c)
    (R := fun ω : Ω × Ω' => s ω.1 ≠ d⁻¹ * c ∧ evalTwo B hB (s ω.1) (t ω.2) ((P, b), c) = timesOf B hB (d * (s ω.1 * t ω.2)))
    fun ω hω => ?_).trans ?_
  · by_cases h : s ω.1 = d⁻¹ * c
    · exact .inl h
    · exact .inr ⟨h, hω⟩
  · rw [two_mul]
    refine add_le_add ?_ (share_prod_le h0 fun ω => ?_)
    · rw [share_fst fun ω => s ω = d⁻¹ * c]
      exact hs _
    · by_cases h : s ω = d⁻¹ * c
      · rw [share_false fun ω' h' => h'.1 h]
        exact h0
      · refine (share_mono fun ω' h' => ?_).trans
          (evalOne_zero B hB hB0 h0 ht (P + timesOf B hB (b * s ω), c - d * s ω) fun h' => h ?_)
        · have h2 : P + timesOf B hB (b * s ω + c * t ω') = timesOf B hB (d * (s ω * t ω')) := h'.2
          show P + timesOf B hB (b * s ω) + timesOf B hB ((c - d * s ω) * t ω') = 0
          rw [sub_mul, map_sub, mul_assoc, ← h2, map_add]
          abel
        · have h' : c - d * s ω = 0 := congrArg Prod.snd h'
          rw [sub_eq_zero] at h'
          rw [h', ← mul_assoc, inv_mul_cancel₀ hd, one_mul]

include hB0 in
/-- Common secrets, up to factors `ds`. -/
theorem generic_secret {s : Ω → Nat} {t : Ω' → Nat} {ε : ℚ} (h0 : 0 ≤ ε) (hs : ∀ c : ZMod ℓ, share (fun ω => (s ω : ZMod ℓ) = c) ≤ ε)
    (ht : ∀ c : ZMod ℓ, share (fun ω => (t ω : ZMod ℓ) = c) ≤ ε) (a : GroupAttack Nat) {e : Nat} (ha : a.Compares e) (pub : List G)
    (ds : List (ZMod ℓ)) (hds : ∀ d ∈ ds, d ≠ 0) :
    share (fun ω : Ω × Ω' => ∃ d ∈ ds, ∃ o r, a.run (pub ++ [s ω.1 • B, t ω.2 • B]) = (o, r) ∧
      r.getD o 0 = timesOf B hB (d * ((s ω.1 : ZMod ℓ) * (t ω.2 : ZMod ℓ)))) ≤ (e + 2 * ds.length) * ε := by
  let r : List ((G × ZMod ℓ) × ZMod ℓ) := pub.map (fun P => ((P, 0), 0)) ++ [((0, 1), 0), ((0, 0), 1)]
  have hr : ∀ ω : Ω × Ω', r.map (evalTwo B hB (s ω.1) (t ω.2)) = pub ++ [s ω.1 • B, t ω.2 • B] := by
    intro ω
    rw [List.map_append, List.map_map, List.map_cons, List.map_singleton]
    congr 1
    · refine (List.map_congr_left fun P _ => ?_).trans (List.map_id pub)
      show P + timesOf B hB (0 * (s ω.1 : ZMod ℓ) + 0 * (t ω.2 : ZMod ℓ)) = P
      rw [zero_mul, zero_mul, add_zero, map_zero, add_zero]
    · show [0 + timesOf B hB (1 * (s ω.1 : ZMod ℓ) + 0 * (t ω.2 : ZMod ℓ)), 0 + timesOf B hB (0 * (s ω.1 : ZMod ℓ) + 1 * (t ω.2 : ZMod ℓ))] = _
      rw [one_mul, one_mul, zero_mul, zero_mul, add_zero, zero_add, zero_add, zero_add, timesOf_natCast, timesOf_natCast]
  have hz := evalTwo_zero B hB hB0 (s := fun ω => (s ω : ZMod ℓ)) (t := fun ω => (t ω : ZMod ℓ)) h0 hs ht
  have h1 := generic_run (fun ω : Ω × Ω' => evalTwo B hB (s ω.1) (t ω.2)) h0 hz a ha r
  simp only [hr] at h1
  have h2 : share (fun ω : Ω × Ω' => ∃ d ∈ ds, d ≠ 0 ∧ evalTwo B hB (s ω.1) (t ω.2) ((a.run r).2.getD (a.run r).1 0) =
      timesOf B hB (d * ((s ω.1 : ZMod ℓ) * (t ω.2 : ZMod ℓ)))) ≤ ds.length * (2 * ε) := by
    refine share_exists_mem ds fun d => ?_
    by_cases hd : d = 0
    · rw [share_false fun ω h => h.1 hd]
      linarith
    · exact (share_mono fun ω h => h.2).trans (evalTwo_product B hB hB0 (s := fun ω => (s ω : ZMod ℓ)) (t := fun ω => (t ω : ZMod ℓ)) h0 hs ht ((a.run r).2.getD (a.run r).1 0) d hd)
  refine (share_le_add (fun ω hω => ?_)).trans ((add_le_add h1 h2).trans (le_of_eq (by ring)))
  obtain ⟨d, hd, o, r', e1, e2⟩ := hω
  by_cases h : a.run (pub ++ [s ω.1 • B, t ω.2 • B]) = ((a.run r).1, (a.run r).2.map (evalTwo B hB (s ω.1) (t ω.2)))
  · refine .inr ⟨d, hd, hds d hd, ?_⟩
    rw [e1] at h
    obtain ⟨rfl, rfl⟩ := Prod.ext_iff.mp h
    rw [← map_getD_zero]
    exact e2
  · exact .inl h

/-- Expressions `P + b s B + c t B + d s t B`. -/
def evalSecret (s t : ZMod ℓ) : ((G × ZMod ℓ) × ZMod ℓ) × ZMod ℓ →+ G where
  toFun v := evalTwo B hB s t v.1 + timesOf B hB (v.2 * (s * t))
  map_zero' := by simp
  map_add' u v := by
    rw [Prod.fst_add, Prod.snd_add, map_add, add_mul, map_add]
    abel

/-- Expressions `P + b s B + c t B + d w B`. -/
def evalThree (s t w : ZMod ℓ) : ((G × ZMod ℓ) × ZMod ℓ) × ZMod ℓ →+ G where
  toFun v := evalTwo B hB s t v.1 + timesOf B hB (v.2 * w)
  map_zero' := by simp
  map_add' u v := by
    rw [Prod.fst_add, Prod.snd_add, map_add, add_mul, map_add]
    abel

include hB0 in
theorem evalSecret_zero {s : Ω → ZMod ℓ} {t : Ω' → ZMod ℓ} {ε : ℚ} (h0 : 0 ≤ ε) (hs : ∀ c, share (fun ω => s ω = c) ≤ ε)
    (ht : ∀ c, share (fun ω => t ω = c) ≤ ε) (v : ((G × ZMod ℓ) × ZMod ℓ) × ZMod ℓ) (hv : v ≠ 0) :
    share (fun ω : Ω × Ω' => evalSecret B hB (s ω.1) (t ω.2) v = 0) ≤ 2 * ε := by
  obtain ⟨v, d⟩ := v
  by_cases hd : d = 0
  · subst hd
    have e : ∀ ω : Ω × Ω', evalSecret B hB (s ω.1) (t ω.2) (v, 0) = evalTwo B hB (s ω.1) (t ω.2) v := by
      intro ω
      show evalTwo B hB (s ω.1) (t ω.2) v + timesOf B hB (0 * (s ω.1 * t ω.2)) = _
      rw [zero_mul, map_zero, add_zero]
    simp only [e]
    have := evalTwo_zero B hB hB0 h0 hs ht v fun h => hv (by rw [h]; rfl)
    linarith
  · refine (share_mono fun ω h => ?_).trans (evalTwo_product B hB hB0 h0 hs ht v (-d) (neg_ne_zero.mpr hd))
    have h : evalTwo B hB (s ω.1) (t ω.2) v + timesOf B hB (d * (s ω.1 * t ω.2)) = 0 := h
    rw [neg_mul, map_neg]
    exact eq_neg_of_add_eq_zero_left h

variable {Ω'' : Type} [Fintype Ω''] [Nonempty Ω'']

include hB0 in
theorem evalThree_zero {s : Ω → ZMod ℓ} {t : Ω' → ZMod ℓ} {w : Ω'' → ZMod ℓ} {ε : ℚ} (h0 : 0 ≤ ε)
    (hs : ∀ c, share (fun ω => s ω = c) ≤ ε) (ht : ∀ c, share (fun ω => t ω = c) ≤ ε) (hw : ∀ c, share (fun ω => w ω = c) ≤ ε)
    (v : ((G × ZMod ℓ) × ZMod ℓ) × ZMod ℓ) (hv : v ≠ 0) :
    share (fun ω : (Ω × Ω') × Ω'' => evalThree B hB (s ω.1.1) (t ω.1.2) (w ω.2) v = 0) ≤ ε := by
  obtain ⟨v, d⟩ := v
  by_cases hd : d = 0
  · subst hd
    have e : ∀ ω : (Ω × Ω') × Ω'', evalThree B hB (s ω.1.1) (t ω.1.2) (w ω.2) (v, 0) = evalTwo B hB (s ω.1.1) (t ω.1.2) v := by
      intro ω
      show evalTwo B hB (s ω.1.1) (t ω.1.2) v + timesOf B hB (0 * w ω.2) = _
      rw [zero_mul, map_zero, add_zero]
    simp only [e]
    rw [share_fst fun ω : Ω × Ω' => evalTwo B hB (s ω.1) (t ω.2) v = 0]
    exact evalTwo_zero B hB hB0 h0 hs ht v fun h => hv (by rw [h]; rfl)
  · exact share_prod_le h0 fun ω => evalOne_zero B hB hB0 h0 hw (evalTwo B hB (s ω.1) (t ω.2) v, d) fun h => hd (congrArg Prod.snd h)

/-- A run that is nearly always the formal one has nearly always its result. -/
theorem share_formal {Ω : Type} [Fintype Ω] [Nonempty Ω] {δ : ℚ} {X Y : Type} (f : Ω → X × Y) (x : X) (g : Ω → Y)
    (h : share (fun ω => f ω ≠ (x, g ω)) ≤ δ) (D : X → Prop) [Decidable (D x)] :
    |share (fun ω => D (f ω).1) - if D x then 1 else 0| ≤ δ := by
  by_cases hx : D x
  · rw [if_pos hx]
    have h1 : share (fun ω => ¬ D (f ω).1) ≤ δ := (share_mono fun ω hω e => hω (by rw [e]; exact hx)).trans h
    rw [share_sub] at h1
    rw [abs_le]
    have h2 := share_nonneg fun ω => f ω ≠ (x, g ω)
    have h3 := share_nonneg fun ω => ¬ D (f ω).1
    rw [share_sub] at h3
    constructor <;> linarith
  · rw [if_neg hx, sub_zero, abs_of_nonneg (share_nonneg _)]
    refine le_trans (share_mono (Q := fun ω => f ω ≠ (x, g ω)) fun ω hω e => hx ?_) h
    have h1 : (f ω).1 = x := by rw [e]
    rw [← h1]
    exact hω

include hB hB0 in
/-- Common secrets look like the public keys of further secrets. -/
theorem generic_decide {s : Ω → Nat} {t : Ω' → Nat} {w : Ω'' → Nat} {ε : ℚ} (h0 : 0 ≤ ε)
    (hs : ∀ c : ZMod ℓ, share (fun ω => (s ω : ZMod ℓ) = c) ≤ ε) (ht : ∀ c : ZMod ℓ, share (fun ω => (t ω : ZMod ℓ) = c) ≤ ε)
    (hw : ∀ c : ZMod ℓ, share (fun ω => (w ω : ZMod ℓ) = c) ≤ ε) (a : GroupAttack O) {e : Nat} (ha : a.Compares e) (pub : List G)
    (D : O → Prop) :
    |share (fun ω : Ω × Ω' => D (a.run (pub ++ [s ω.1 • B, t ω.2 • B, (s ω.1 * t ω.2) • B])).1) -
      share (fun ω : (Ω × Ω') × Ω'' => D (a.run (pub ++ [s ω.1.1 • B, t ω.1.2 • B, w ω.2 • B])).1)| ≤ 3 * e * ε := by
  classical
  let r : List (((G × ZMod ℓ) × ZMod ℓ) × ZMod ℓ) :=
    pub.map (fun P => (((P, 0), 0), 0)) ++ [(((0, 1), 0), 0), (((0, 0), 1), 0), (((0, 0), 0), 1)]
  have hr1 : ∀ ω : Ω × Ω', r.map (evalSecret B hB (s ω.1) (t ω.2)) = pub ++ [s ω.1 • B, t ω.2 • B, (s ω.1 * t ω.2) • B] := by
    intro ω
    rw [List.map_append, List.map_map]
    congr 1
    · refine (List.map_congr_left fun P _ => ?_).trans (List.map_id pub)
      show P + timesOf B hB (0 * (s ω.1 : ZMod ℓ) + 0 * (t ω.2 : ZMod ℓ)) + timesOf B hB (0 * _) = P
      rw [zero_mul, zero_mul, zero_mul, add_zero, map_zero, add_zero, add_zero]
    · show [0 + timesOf B hB (1 * (s ω.1 : ZMod ℓ) + 0 * (t ω.2 : ZMod ℓ)) + timesOf B hB (0 * _),
        0 + timesOf B hB (0 * (s ω.1 : ZMod ℓ) + 1 * (t ω.2 : ZMod ℓ)) + timesOf B hB (0 * _),
        0 + timesOf B hB (0 * (s ω.1 : ZMod ℓ) + 0 * (t ω.2 : ZMod ℓ)) + timesOf B hB (1 * ((s ω.1 : ZMod ℓ) * (t ω.2 : ZMod ℓ)))] = _
      simp only [one_mul, zero_mul, add_zero, zero_add, map_zero, ← Nat.cast_mul, timesOf_natCast]
  have hr2 : ∀ ω : (Ω × Ω') × Ω'', r.map (evalThree B hB (s ω.1.1) (t ω.1.2) (w ω.2)) =
      pub ++ [s ω.1.1 • B, t ω.1.2 • B, w ω.2 • B] := by
    intro ω
    rw [List.map_append, List.map_map]
    congr 1
    · refine (List.map_congr_left fun P _ => ?_).trans (List.map_id pub)
      show P + timesOf B hB (0 * (s ω.1.1 : ZMod ℓ) + 0 * (t ω.1.2 : ZMod ℓ)) + timesOf B hB (0 * _) = P
      rw [zero_mul, zero_mul, zero_mul, add_zero, map_zero, add_zero, add_zero]
    · show [0 + timesOf B hB (1 * (s ω.1.1 : ZMod ℓ) + 0 * (t ω.1.2 : ZMod ℓ)) + timesOf B hB (0 * _),
        0 + timesOf B hB (0 * (s ω.1.1 : ZMod ℓ) + 1 * (t ω.1.2 : ZMod ℓ)) + timesOf B hB (0 * _),
        0 + timesOf B hB (0 * (s ω.1.1 : ZMod ℓ) + 0 * (t ω.1.2 : ZMod ℓ)) + timesOf B hB (1 * (w ω.2 : ZMod ℓ))] = _
      simp only [one_mul, zero_mul, add_zero, zero_add, map_zero, timesOf_natCast]
  have z1 := evalSecret_zero B hB hB0 (s := fun ω => (s ω : ZMod ℓ)) (t := fun ω => (t ω : ZMod ℓ)) h0 hs ht
  have z2 := evalThree_zero B hB hB0 (s := fun ω => (s ω : ZMod ℓ)) (t := fun ω => (t ω : ZMod ℓ)) (w := fun ω => (w ω : ZMod ℓ)) h0 hs ht hw
  have h2 : 0 ≤ 2 * ε := by linarith
  have g1 := generic_run (fun ω : Ω × Ω' => evalSecret B hB (s ω.1) (t ω.2)) h2 z1 a ha r
  have g2 := generic_run (fun ω : (Ω × Ω') × Ω'' => evalThree B hB (s ω.1.1) (t ω.1.2) (w ω.2)) h0 z2 a ha r
  simp only [hr1] at g1
  simp only [hr2] at g2
  have f1 := share_formal _ _ _ g1 D
  have f2 := share_formal _ _ _ g2 D
  rw [abs_le] at f1 f2 ⊢
  constructor <;> linarith

end

end Hacspec.Ideal
