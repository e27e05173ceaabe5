import Mathlib.Data.Finset.Powerset
import Mathlib.Algebra.Order.BigOperators.Group.Finset
import Verif.Spec.Counting
import Verif.Props.Universals

/-! # Counting keys of the one-time authenticators -/

namespace Hacspec.OneTime

open Spec

theorem mem_byteStrings {n : Nat} {l : List U8} : l ∈ byteStrings n ↔ l.length = n := by
  rw [byteStrings, Set.Finite.mem_toFinset, Set.mem_ofPred_eq]

theorem byteStrings_eq (n : Nat) : byteStrings n = (Finset.range (256 ^ n)).image (leBytes n) := by
  ext l
  rw [mem_byteStrings, Finset.mem_image]
  constructor
  · rintro rfl
    exact ⟨leVal l, Finset.mem_range.mpr (leVal_lt l), Universal.leVal_inj (length_leBytes _ _)
      (by rw [leVal_leBytes, Nat.mod_eq_of_lt (leVal_lt l)])⟩
  · rintro ⟨x, -, rfl⟩
    exact length_leBytes _ _

theorem card_byteStrings (n : Nat) : (byteStrings n).card = 256 ^ n := by
  rw [byteStrings_eq, Finset.card_image_of_injOn, Finset.card_range]
  intro x hx y hy h
  have hx := Finset.mem_range.mp hx
  have hy := Finset.mem_range.mp hy
  have := leBytes_inj h
  rwa [Nat.mod_eq_of_lt hx, Nat.mod_eq_of_lt hy] at this

/-! ## Poly1305 -/

theorem clampR_take (k : List U8) : Poly1305.clampR (k.take 16) = Poly1305.clampR k := by
  rw [Poly1305.clampR, Poly1305.clampR, List.take_take, Nat.min_self]

theorem keyS_lt {k : List U8} (hk : k.length = 32) : Poly1305.keyS k < 2 ^ 128 := by
  have := leVal_lt ((k.drop 16).take 16)
  rw [List.length_take, List.length_drop, hk] at this
  exact this

/-- The bits that clamping clears. -/
def cleared : Finset Nat := (Finset.range 128).filter fun i => Nat.testBit 0x0ffffffc0ffffffc0ffffffc0fffffff i = false

theorem card_cleared : cleared.card = 22 := by decide +kernel

/-- At most `2^22` strings of 16 bytes are clamped to a given number. -/
theorem card_clamp (c : Nat) : ((byteStrings 16).filter fun ρ => Poly1305.clampR ρ = c).card ≤ 2 ^ 22 := by
  rw [← card_cleared, ← Finset.card_powerset]
  refine Finset.card_le_card_of_injOn (fun ρ => cleared.filter fun i => (leVal ρ).testBit i) ?_ ?_
  · intro ρ _
    exact Finset.mem_coe.mpr (Finset.mem_powerset.mpr (Finset.filter_subset _ _))
  · intro ρ hρ σ hσ h
    have hρ := Finset.mem_filter.mp (Finset.mem_coe.mp hρ)
    have hσ := Finset.mem_filter.mp (Finset.mem_coe.mp hσ)
    have lρ := mem_byteStrings.mp hρ.1
    have lσ := mem_byteStrings.mp hσ.1
    have e : Poly1305.clampR ρ = Poly1305.clampR σ := hρ.2.trans hσ.2.symm
    rw [Poly1305.clampR, Poly1305.clampR, List.take_of_length_le (by omega), List.take_of_length_le (by omega)] at e
    apply Universal.leVal_inj (by omega)
    apply Nat.eq_of_testBit_eq
    intro i
    by_cases hi : i < 128
    · by_cases hc : Nat.testBit 0x0ffffffc0ffffffc0ffffffc0fffffff i = false
      · have := Finset.ext_iff.mp h i
        have hm : i ∈ cleared := Finset.mem_filter.mpr ⟨Finset.mem_range.mpr hi, hc⟩
        simp only [Finset.mem_filter, hm, true_and] at this
        exact Bool.eq_iff_iff.mpr this
      · have := congrArg (fun n => Nat.testBit n i) e
        simp only [Nat.testBit_and, Bool.eq_true_of_not_eq_false hc, Bool.and_true] at this
        exact this
    · have hb : ∀ l : List U8, l.length = 16 → (leVal l).testBit i = false := by
        intro l hl
        apply Nat.testBit_lt_two_pow
        have := leVal_lt l
        rw [hl] at this
        exact lt_of_lt_of_le this (by
          rw [show (256 : Nat) ^ 16 = 2 ^ 128 by norm_num]
          exact Nat.pow_le_pow_right (by norm_num) (by omega))
      rw [hb _ lρ, hb _ lσ]

/-- A key is its two halves. -/
theorem key_ext {k k' : List U8} (hk : k.length = 32) (hk' : k'.length = 32) (h : k.take 16 = k'.take 16)
    (hs : Poly1305.keyS k = Poly1305.keyS k') : k = k' := by
  have l : (k.drop 16).length = 16 := by rw [List.length_drop]; omega
  have l' : (k'.drop 16).length = 16 := by rw [List.length_drop]; omega
  rw [Poly1305.keyS, Poly1305.keyS, List.take_of_length_le (by omega), List.take_of_length_le (by omega)] at hs
  rw [← List.take_append_drop 16 k, ← List.take_append_drop 16 k', h, Universal.leVal_inj (by omega) hs]

theorem acc_lt (r : Nat) (m : List U8) : Poly1305.acc r m < Poly1305.p := by
  have hpos : 0 < Poly1305.p := by decide +kernel
  rw [Poly1305.acc]
  cases (m.length + 15) / 16 with
  | zero => exact hpos
  | succ n =>
    rw [List.range_succ, List.foldl_append]
    exact Nat.mod_lt _ hpos

theorem poly_inj {m t : List U8} {k k' : List U8} (hk : k.length = 32) (hk' : k'.length = 32) (h : k.take 16 = k'.take 16)
    (e : Hacspec.Poly1305.poly m k = .ok t) (e' : Hacspec.Poly1305.poly m k' = .ok t)
    (hw : (Poly1305.acc (Poly1305.clampR k) m + Poly1305.keyS k < Poly1305.p) ↔
      (Poly1305.acc (Poly1305.clampR k') m + Poly1305.keyS k' < Poly1305.p)) : k = k' := by
  refine key_ext hk hk' h ?_
  rw [Props.C38_poly _ _ hk, Except.ok.injEq] at e
  rw [Props.C38_poly _ _ hk', Except.ok.injEq, ← e] at e'
  have e := leBytes_inj e'
  have hr : Poly1305.clampR k' = Poly1305.clampR k := by rw [← clampR_take, ← h, clampR_take]
  have hs := keyS_lt hk
  have hs' := keyS_lt hk'
  have ha := acc_lt (Poly1305.clampR k) m
  rw [hr] at e hw
  have hp : Poly1305.p = 2 ^ 130 - 5 := rfl
  rw [show (256 : Nat) ^ 16 = 2 ^ 128 by norm_num] at e
  generalize Poly1305.acc (Poly1305.clampR k) m = a at *
  generalize Poly1305.keyS k = s at *
  generalize Poly1305.keyS k' = s' at *
  by_cases hlt : a + s < Poly1305.p
  · have := hw.mp hlt
    rw [Nat.mod_eq_of_lt hlt, Nat.mod_eq_of_lt this] at e
    omega
  · have := fun h => hlt (hw.mpr h)
    have e1 : (a + s) % Poly1305.p = a + s - Poly1305.p := by
      rw [Nat.mod_eq_sub_mod (by omega), Nat.mod_eq_of_lt (by omega)]
    have e2 : (a + s') % Poly1305.p = a + s' - Poly1305.p := by
      rw [Nat.mod_eq_sub_mod (by omega), Nat.mod_eq_of_lt (by omega)]
    rw [e1, e2] at e
    omega

open Classical in
/-- Given the first half of the key, at most two second halves give a tag. -/
theorem card_half (m t ρ : List U8) :
    ((byteStrings 32).filter fun k => Hacspec.Poly1305.poly m k = .ok t ∧ k.take 16 = ρ).card ≤ 2 := by
  have : (2 : Nat) = (Finset.univ : Finset Bool).card := rfl
  rw [this]
  refine Finset.card_le_card_of_injOn
    (fun k => decide (Poly1305.acc (Poly1305.clampR k) m + Poly1305.keyS k < Poly1305.p)) (fun _ _ => Finset.mem_coe.mpr (Finset.mem_univ _)) ?_
  intro k hk k' hk' h
  have hk := Finset.mem_filter.mp (Finset.mem_coe.mp hk)
  have hk' := Finset.mem_filter.mp (Finset.mem_coe.mp hk')
  exact poly_inj (mem_byteStrings.mp hk.1) (mem_byteStrings.mp hk'.1) (hk.2.2.trans hk'.2.2.symm) hk.2.1 hk'.2.1
    (decide_eq_decide.mp h)

open Classical in
/-- The keys that give two messages two tags. -/
noncomputable def both (m m' t t' : List U8) : Finset (List U8) :=
  (byteStrings 32).filter fun k => Hacspec.Poly1305.poly m k = .ok t ∧ Hacspec.Poly1305.poly m' k = .ok t'

theorem card_clamps {m m' : List U8} (hne : m ≠ m') (t t' : List U8) :
    ((both m m' t t').image Poly1305.clampR).card ≤ 8 * max ((m.length + 15) / 16) ((m'.length + 15) / 16) := by
  classical
  have hex : ∀ c ∈ (both m m' t t').image Poly1305.clampR, ∃ k, k ∈ both m m' t t' ∧ Poly1305.clampR k = c := fun c hc =>
    Finset.mem_image.mp hc
  let g : Nat → List U8 := fun c => if h : c ∈ (both m m' t t').image Poly1305.clampR then (hex c h).choose else []
  have hg : ∀ c ∈ (both m m' t t').image Poly1305.clampR, g c ∈ both m m' t t' ∧ Poly1305.clampR (g c) = c := by
    intro c hc
    simp only [g, dif_pos hc]
    exact (hex c hc).choose_spec
  have := Props.C73_poly1305_universal m m' hne ((leVal t : Int) - leVal t')
    (((both m m' t t').image Poly1305.clampR).toList.map g) ?_ ?_
  · rwa [List.length_map, Finset.length_toList] at this
  · rw [List.map_map]
    have e : (((both m m' t t').image Poly1305.clampR).toList.map (Poly1305.clampR ∘ g)) =
        ((both m m' t t').image Poly1305.clampR).toList := by
      conv_rhs => rw [← List.map_id ((both m m' t t').image Poly1305.clampR).toList]
      exact List.map_congr_left fun c hc => (hg c (Finset.mem_toList.mp hc)).2
    rw [e]
    exact Finset.nodup_toList _
  · intro k hk
    obtain ⟨c, hc, rfl⟩ := List.mem_map.mp hk
    have h := Finset.mem_filter.mp (hg c (Finset.mem_toList.mp hc)).1
    exact ⟨mem_byteStrings.mp h.1, t, t', h.2.1, h.2.2, Int.ModEq.refl _⟩

theorem card_both {m m' : List U8} (hne : m ≠ m') (t t' : List U8) :
    (both m m' t t').card ≤ 2 ^ 26 * max ((m.length + 15) / 16) ((m'.length + 15) / 16) := by
  classical
  have h1 := Finset.card_le_mul_card_image_of_maps_to (s := both m m' t t') (t := (both m m' t t').image Poly1305.clampR)
    (f := Poly1305.clampR) (fun k hk => Finset.mem_image_of_mem _ hk) (2 ^ 23) (by
      intro c _
      have h2 := Finset.card_le_mul_card_image_of_maps_to (s := (both m m' t t').filter fun k => Poly1305.clampR k = c)
        (t := (byteStrings 16).filter fun ρ => Poly1305.clampR ρ = c) (f := fun k => k.take 16) (by
          intro k hk
          have hk := Finset.mem_filter.mp hk
          have hb := Finset.mem_filter.mp hk.1
          have := mem_byteStrings.mp hb.1
          exact Finset.mem_filter.mpr ⟨mem_byteStrings.mpr (by rw [List.length_take]; omega), by rw [clampR_take, hk.2]⟩) 2 (by
          intro ρ _
          refine (Finset.card_le_card ?_).trans (card_half m t ρ)
          intro k hk
          have hk := Finset.mem_filter.mp hk
          have hb := Finset.mem_filter.mp (Finset.mem_filter.mp hk.1).1
          exact Finset.mem_filter.mpr ⟨hb.1, hb.2.1, hk.2⟩)
      have h3 := card_clamp c
      omega)
  have h4 := card_clamps hne t t'
  omega

end Hacspec.OneTime
