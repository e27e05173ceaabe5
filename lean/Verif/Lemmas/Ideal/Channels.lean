import Mathlib.Algebra.Order.BigOperators.Group.Finset
import Mathlib.Tactic.LinearCombination
import Verif.Lemmas.Ideal.Generic
import Verif.Spec.Channels

/-! # Attacks on sessions after a key exchange -/

namespace Hacspec.Ideal

open Spec Finset

section

variable {Q R O G G' : Type} [AddCommGroup G] [AddCommGroup G']

theorem resolves_play (a : ChannelAttack Q R O) (r : List G) : a.Resolves (a.play r) := by
  induction a generalizing r with
  | ret o => exact .ret o
  | combine c d i j k ih => exact .combine (ih _)
  | compare i j k ih => exact .compare _ (ih _ r)
  | ask x k ih => exact .ask fun y => ih y r

open Classical in
/-- The differences of the elements that are compared and not equal. -/
noncomputable def hits (ev : Q → R) : ChannelAttack Q R O → List G → List G
  | .ret _, _ => []
  | .combine c d i j k, r => hits ev k (r ++ [c • r.getD i 0 + d • r.getD j 0])
  | .compare i j k, r => if r.getD i 0 = r.getD j 0 then hits ev (k true) r else (r.getD i 0 - r.getD j 0) :: hits ev (k false) r
  | .ask x k, r => hits ev (k (ev x)) r

theorem hits_length (ev : Q → R) {a : ChannelAttack Q R O} {e : Nat} (ha : a.Compares e) (r : List G) : (hits ev a r).length ≤ e := by
  induction a generalizing e r with
  | ret o => exact Nat.zero_le _
  | combine c d i j k ih => exact ih ha _
  | compare i j k ih =>
    obtain ⟨e, rfl, ha⟩ := ha
    rw [hits]
    split
    · exact (ih true (ha true) r).trans (Nat.le_succ e)
    · exact Nat.succ_le_succ (ih false (ha false) r)
  | ask x k ih => exact ih _ (ha _) r

theorem hits_ne (ev : Q → R) (a : ChannelAttack Q R O) (r : List G) : ∀ v ∈ hits ev a r, v ≠ 0 := by
  induction a generalizing r with
  | ret o => exact fun v hv => absurd hv List.not_mem_nil
  | combine c d i j k ih => exact ih _
  | compare i j k ih =>
    rw [hits]
    split
    · exact ih true r
    · rename_i h
      intro v hv
      rcases List.mem_cons.mp hv with rfl | hv
      · exact sub_ne_zero.mpr h
      · exact ih false r v hv
  | ask x k ih => exact ih _ r

open Classical in
/-- Without accidental equalities, the formal run is the run in the group. -/
theorem play_formal (ev : Q → R) (φ : G' →+ G) (a : ChannelAttack Q R O) (r : List G') (h : ∀ v ∈ hits ev a r, φ v ≠ 0) :
    (a.play (r.map φ)).run ev = (a.play r).run ev ∧ (a.play (r.map φ)).answers ev = (a.play r).answers ev := by
  induction a generalizing r with
  | ret o => exact ⟨rfl, rfl⟩
  | combine c d i j k ih =>
    have := ih _ h
    rw [List.map_append, List.map_singleton, map_add, map_zsmul, map_zsmul, ← map_getD_zero, ← map_getD_zero] at this
    exact this
  | compare i j k ih =>
    rw [hits] at h
    rw [ChannelAttack.play, ChannelAttack.play, map_getD_zero, map_getD_zero]
    by_cases he : r.getD i 0 = r.getD j 0
    · rw [if_pos he] at h
      rw [he, decide_eq_true rfl, decide_eq_true rfl]
      exact ih true r h
    · rw [if_neg he] at h
      have hn : ¬ φ (r.getD i 0) = φ (r.getD j 0) := fun e => h _ List.mem_cons_self (by rw [map_sub, e, sub_self])
      rw [decide_eq_false he, decide_eq_false hn]
      exact ih false r fun v hv => h v (List.mem_cons_of_mem _ hv)
  | ask x k ih =>
    have := ih (ev x) r h
    exact ⟨this.1, congrArg (List.cons (ev x)) this.2⟩

end

section

variable {G : Type} [AddCommGroup G] {ℓ : Nat} [Fact ℓ.Prime] (B : G) (hB : ℓ • B = 0) (hB0 : B ≠ 0)

include hB0 in
/-- A line and a hyperbola meet in at most two points. -/
theorem card_line (v : (G × ZMod ℓ) × ZMod ℓ) (hv : v ≠ 0) {m : ZMod ℓ} (hm : m ≠ 0) (S : Finset (ZMod ℓ × ZMod ℓ))
    (hS : ∀ z ∈ S, z.1 * z.2 = m ∧ evalTwo B hB z.1 z.2 v = 0) : S.card ≤ 2 := by
  obtain ⟨⟨P, b⟩, c⟩ := v
  by_contra hc
  rw [not_le, Finset.two_lt_card] at hc
  obtain ⟨z1, h1, z2, h2, z3, h3, h12, h13, h23⟩ := hc
  have hP : ∃ p, timesOf B hB p = P := by
    have h := (hS z1 h1).2
    have h : P + timesOf B hB (b * z1.1 + c * z1.2) = 0 := h
    exact ⟨-(b * z1.1 + c * z1.2), by rw [map_neg]; exact (eq_neg_of_add_eq_zero_left h).symm⟩
  obtain ⟨p, rfl⟩ := hP
  have e : ∀ z ∈ S, z.1 * z.2 = m ∧ p * z.1 + b * z.1 * z.1 + c * m = 0 := by
    intro z hz
    obtain ⟨e1, e2⟩ := hS z hz
    have e2 : timesOf B hB p + timesOf B hB (b * z.1 + c * z.2) = 0 := e2
    rw [← map_add] at e2
    have e3 := timesOf_inj B hB hB0 (e2.trans (map_zero _).symm)
    exact ⟨e1, by linear_combination z.1 * e3 - c * e1⟩
  have ne : ∀ z ∈ S, ∀ z' ∈ S, z ≠ z' → z.1 - z'.1 ≠ 0 := by
    intro z hz z' hz' hne h
    have h := sub_eq_zero.mp h
    have h0 : z.1 ≠ 0 := fun h0 => hm (by rw [← (e z hz).1, h0, zero_mul])
    refine hne (Prod.ext h (mul_left_cancel₀ h0 ?_))
    rw [(e z hz).1, h, (e z' hz').1]
  have f12 : p + b * (z1.1 + z2.1) = 0 :=
    mul_left_cancel₀ (ne z1 h1 z2 h2 h12) (by linear_combination (e z1 h1).2 - (e z2 h2).2)
  have f13 : p + b * (z1.1 + z3.1) = 0 :=
    mul_left_cancel₀ (ne z1 h1 z3 h3 h13) (by linear_combination (e z1 h1).2 - (e z3 h3).2)
  have hb : b = 0 := by
    refine (mul_eq_zero.mp (?_ : b * (z2.1 - z3.1) = 0)).resolve_right (ne z2 h2 z3 h3 h23)
    linear_combination f12 - f13
  subst hb
  have hp : p = 0 := by linear_combination f12
  subst hp
  have hcm : c * m = 0 := by linear_combination (e z1 h1).2
  have hc0 := (mul_eq_zero.mp hcm).resolve_right hm
  subst hc0
  exact hv (by rw [map_zero]; rfl)

variable {Ω Ω' : Type} [Fintype Ω] [Fintype Ω'] [Nonempty Ω] [Nonempty Ω']

theorem share_both {Z Z' : Type} {s : Ω → Z} {t : Ω' → Z'} {ε : ℚ} (h0 : 0 ≤ ε) (hs : ∀ c, share (fun ω => s ω = c) ≤ ε)
    (ht : ∀ c, share (fun ω => t ω = c) ≤ ε) (z : Z × Z') : share (fun ω : Ω × Ω' => (s ω.1, t ω.2) = z) ≤ ε * ε := by
  classical
  rw [share_prod]
  have h : ∀ a, share (fun b => (s a, t b) = z) ≤ (if s a = z.1 then 1 else 0) * ε := by
    intro a
    by_cases ha : s a = z.1
    · rw [if_pos ha, one_mul]
      exact (share_mono fun b hb => (congrArg Prod.snd hb : t b = z.2)).trans (ht z.2)
    · rw [if_neg ha, zero_mul, share_false fun b hb => ha (congrArg Prod.fst hb)]
  refine (div_le_div_of_nonneg_right (Finset.sum_le_sum fun a _ => h a) (Nat.cast_nonneg _)).trans ?_
  rw [← Finset.sum_mul, mul_div_right_comm, Finset.sum_boole]
  refine mul_le_mul_of_nonneg_right ?_ h0
  have := hs z.1
  rw [share] at this
  convert this

include hB0 in
/-- Accidental equalities are rare, even if the elements that are compared depend on the common secret. -/
theorem share_hits {s : Ω → ZMod ℓ} {t : Ω' → ZMod ℓ} {ε : ℚ} (h0 : 0 ≤ ε) (hs : ∀ c, share (fun ω => s ω = c) ≤ ε)
    (ht : ∀ c, share (fun ω => t ω = c) ≤ ε) (hs0 : ∀ ω, s ω ≠ 0) (ht0 : ∀ ω, t ω ≠ 0) (V : ZMod ℓ → List ((G × ZMod ℓ) × ZMod ℓ)) {e : Nat}
    (hV : ∀ m, (V m).length ≤ e) (hV0 : ∀ m, ∀ v ∈ V m, v ≠ 0) :
    share (fun ω : Ω × Ω' => ∃ v ∈ V (s ω.1 * t ω.2), evalTwo B hB (s ω.1) (t ω.2) v = 0) ≤ 2 * e * ℓ * (ε * ε) := by
  classical
  let T (m : ZMod ℓ) (v : (G × ZMod ℓ) × ZMod ℓ) : Finset (ZMod ℓ × ZMod ℓ) :=
    univ.filter fun z => (z.1 * z.2 = m ∧ evalTwo B hB z.1 z.2 v = 0) ∧ m ≠ 0
  let S : Finset (ZMod ℓ × ZMod ℓ) := univ.biUnion fun m => (V m).toFinset.biUnion fun v => T m v
  have hT : ∀ m, ∀ v ∈ V m, (T m v).card ≤ 2 := by
    intro m v hv
    by_cases hm : m = 0
    · rw [Finset.card_eq_zero.mpr (Finset.filter_eq_empty_iff.mpr fun z _ h => h.2 hm)]
      exact Nat.zero_le _
    · exact card_line B hB hB0 v (hV0 m v hv) hm _ fun z hz => (Finset.mem_filter.mp hz).2.1
  have hS : S.card ≤ ℓ * (e * 2) := by
    refine (Finset.card_biUnion_le_card_mul _ _ (e * 2) fun m _ => ?_).trans (by rw [Finset.card_univ, ZMod.card])
    refine (Finset.card_biUnion_le_card_mul _ _ 2 fun v hv => hT m v (List.mem_toFinset.mp hv)).trans ?_
    exact Nat.mul_le_mul_right 2 ((List.toFinset_card_le _).trans (hV m))
  have h := share_exists_mem S.toList (share_both h0 hs ht)
  refine (share_mono fun ω hω => ?_).trans (h.trans ?_)
  · obtain ⟨v, hv, hz⟩ := hω
    refine ⟨(s ω.1, t ω.2), Finset.mem_toList.mpr ?_, rfl⟩
    exact Finset.mem_biUnion.mpr ⟨s ω.1 * t ω.2, Finset.mem_univ _, Finset.mem_biUnion.mpr ⟨v, List.mem_toFinset.mpr hv,
      Finset.mem_filter.mpr ⟨Finset.mem_univ _, ⟨rfl, hz⟩, mul_ne_zero (hs0 _) (ht0 _)⟩⟩⟩
  · rw [Finset.length_toList]
    refine mul_le_mul_of_nonneg_right ?_ (mul_nonneg h0 h0)
    have : (S.card : ℚ) ≤ ((ℓ * (e * 2) : Nat) : ℚ) := Nat.cast_le.mpr hS
    refine this.trans (le_of_eq ?_)
    push_cast
    ring

/-- The formal elements: the public ones and two unknowns. -/
def formal (ℓ : Nat) (pub : List G) : List ((G × ZMod ℓ) × ZMod ℓ) := pub.map (fun P => ((P, 0), 0)) ++ [((0, 1), 0), ((0, 0), 1)]

theorem map_formal (pub : List G) (s t : Nat) : (formal ℓ pub).map (evalTwo B hB (s : ZMod ℓ) (t : ZMod ℓ)) = pub ++ [s • B, t • B] := by
  rw [formal, List.map_append, List.map_map, List.map_cons, List.map_singleton]
  congr 1
  · refine (List.map_congr_left fun P _ => ?_).trans (List.map_id pub)
    show P + timesOf B hB (0 * (s : ZMod ℓ) + 0 * (t : ZMod ℓ)) = P
    rw [zero_mul, zero_mul, add_zero, map_zero, add_zero]
  · show [0 + timesOf B hB (1 * (s : ZMod ℓ) + 0 * (t : ZMod ℓ)), 0 + timesOf B hB (0 * (s : ZMod ℓ) + 1 * (t : ZMod ℓ))] = _
    rw [one_mul, one_mul, zero_mul, zero_mul, add_zero, zero_add, zero_add, zero_add, timesOf_natCast, timesOf_natCast]

include hB hB0 in
/-- What is left of an attack nearly always: a program that does not depend on the group. -/
theorem share_channel {Q R O : Type} {s : Ω → Nat} {t : Ω' → Nat} {ε : ℚ} (h0 : 0 ≤ ε) (hs : ∀ c : ZMod ℓ, share (fun ω => (s ω : ZMod ℓ) = c) ≤ ε)
    (ht : ∀ c : ZMod ℓ, share (fun ω => (t ω : ZMod ℓ) = c) ≤ ε) (hs0 : ∀ ω, (s ω : ZMod ℓ) ≠ 0) (ht0 : ∀ ω, (t ω : ZMod ℓ) ≠ 0)
    (a : ChannelAttack Q R O) {e : Nat} (ha : a.Compares e) (pub : List G) (ev : G → Q → R) :
    share (fun ω : Ω × Ω' => ¬ ((a.play (pub ++ [s ω.1 • B, t ω.2 • B])).run (ev ((s ω.1 * t ω.2) • B)) =
          (a.play (formal ℓ pub)).run (ev ((s ω.1 * t ω.2) • B)) ∧
        (a.play (pub ++ [s ω.1 • B, t ω.2 • B])).answers (ev ((s ω.1 * t ω.2) • B)) =
          (a.play (formal ℓ pub)).answers (ev ((s ω.1 * t ω.2) • B)))) ≤ 2 * e * ℓ * (ε * ε) := by
  have h := share_hits B hB hB0 (s := fun ω => (s ω : ZMod ℓ)) (t := fun ω => (t ω : ZMod ℓ)) h0 hs ht hs0 ht0
    (fun m => hits (ev (timesOf B hB m)) a (formal ℓ pub)) (fun m => hits_length _ ha _) (fun m => hits_ne _ a _)
  refine (share_mono fun ω hω => ?_).trans h
  by_contra hc
  rw [not_exists] at hc
  have hm : timesOf B hB ((s ω.1 : ZMod ℓ) * (t ω.2 : ZMod ℓ)) = (s ω.1 * t ω.2) • B := by rw [← Nat.cast_mul, timesOf_natCast]
  have := play_formal (ev (timesOf B hB ((s ω.1 : ZMod ℓ) * (t ω.2 : ZMod ℓ)))) (evalTwo B hB (s ω.1 : ZMod ℓ) (t ω.2 : ZMod ℓ)) a (formal ℓ pub)
    fun v hv hz => hc v ⟨hv, hz⟩
  rw [map_formal, hm] at this
  exact hω this

end

end Hacspec.Ideal
