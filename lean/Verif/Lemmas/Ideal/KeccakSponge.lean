import Verif.Lemmas.Ideal.Indifference
import Verif.Lemmas.Ideal.Keccak

/-! # Keccak as a sponge with a simulator -/

namespace Hacspec.Ideal

open Spec Hacspec.Seq Hacspec.Fips202 Hacspec.Props SecretInt
open Spec.Fips202 (bits laneBits)
open Spec.Sponge (walk value)

/-! ## All output blocks -/

theorem squeezed_all (π : Equiv.Perm (Words 64 25)) {rate : Nat} (hr : 0 < rate) (hr2 : rate ≤ 200) (s : Words 64 25) (n : Nat) :
    ∃ out, squeezeWith (keccakPerm π) s.1 n rate = .ok out ∧ out.length = n ∧
      ∀ i, i < n → out.getD i 0 = stateByte (π^[i / rate] s).1 (i % rate) := by
  obtain ⟨st, h1, h2, h3, h4⟩ := loop_inv (n := n) (body := squeezeStepWith (keccakPerm π) rate) (s := (s.1, (new n : List U8)))
    (fun k st => st.1 = (π^[k / rate] s).1 ∧ st.2.length = n ∧
      ∀ i, i < k → st.2.getD i 0 = stateByte (π^[i / rate] s).1 (i % rate))
    ⟨by rw [Nat.zero_div]; rfl, length_new n, fun i hi => absurd hi (Nat.not_lt_zero i)⟩
    (fun k hk st ⟨h2, h3, h4⟩ => by
      have hlt := Nat.mod_lt k hr
      have hs : st.1.length = 25 := by rw [h2]; exact (π^[k / rate] s).2
      let o := st.2.set k (castU 8 (((st.1.getD (k % rate / 8) 0) >>> (8 * (k % rate % 8))) &&& classify 0xff#64))
      have hby : ∀ i, i < k + 1 → o.getD i 0 = stateByte (π^[i / rate] s).1 (i % rate) := by
        intro i hi
        simp only [o]
        rw [ChaCha.getD_set]
        by_cases h : k = i
        · subst h
          rw [if_pos ⟨rfl, by omega⟩, h2, stateByte, castU]
          refine BitVec.eq_of_getLsbD_eq fun b hb => ?_
          rw [BitVec.getLsbD_setWidth, BitVec.getLsbD_setWidth, BitVec.getLsbD_and]
          have hff : (classify 0xff#64 : U64).getLsbD b = true := by
            revert b; decide
          rw [hff, Bool.and_true]
        · rw [if_neg (fun c => h c.1), h4 i (by omega)]
      have hstep : squeezeStepWith (keccakPerm π) rate k st = squeezeNextWith (keccakPerm π) k rate st.1 >>= fun s' => .ok (s', o) := by
        rw [squeezeStepWith, idx_getD 0 (by omega), bind_ok, shrU, if_pos (by omega), bind_ok, setIdx_ok (by omega), bind_ok]
      have ho : o.length = n := by simp only [o]; rw [List.length_set, h3]
      rw [hstep, squeezeNextWith]
      by_cases h : (k + 1) % rate = 0
      · refine ⟨((π ⟨st.1, hs⟩).1, o), by rw [if_pos h, keccakPerm, dif_pos hs, bind_ok], ?_, ho, hby⟩
        rw [Nat.succ_div_of_dvd (Nat.dvd_of_mod_eq_zero h), Function.iterate_succ_apply']
        exact congrArg (fun u => (π u).1) (Subtype.ext h2)
      · refine ⟨(st.1, o), by rw [if_neg h, bind_ok], ?_, ho, hby⟩
        rw [Nat.succ_div_of_not_dvd fun hd => h (Nat.mod_eq_zero_of_dvd hd)]
        exact h2)
  exact ⟨st.2, by rw [squeezeWith, h1, bind_ok], h3, h4⟩

/-! ## Blocks -/

section

variable {rate : Nat} (hr2 : rate ≤ 200)

/-- The block that leads from one state to another one. -/
def unmixK (rate : Nat) (s t : Words 64 25) : Bytes rate :=
  ⟨(List.range rate).map fun j => stateByte s.1 j ^^^ stateByte t.1 j, by simp⟩

theorem bits_unmixK (s t : Words 64 25) {i : Nat} (hi : i < 8 * rate) (hi2 : i < 1600) :
    (bits (unmixK rate s t).1).getD i false = ((strOf s.1).getD i false ^^ (strOf t.1).getD i false) := by
  rw [Hacspec.Fips202.getD_bits, unmixK, Hacspec.Fips202.map_range_getD _ _ (by omega), BitVec.getLsbD_xor, getLsbD_stateByte _ hi2, getLsbD_stateByte _ hi2]

include hr2 in
theorem unmixK_mixK (b : Bytes rate) (s : Words 64 25) : unmixK rate s (mixK hr2 b s) = b := by
  refine Subtype.ext (bits_eq (by rw [(unmixK rate s (mixK hr2 b s)).2, b.2]) fun i hi => ?_)
  rw [(unmixK rate s (mixK hr2 b s)).2] at hi
  rw [bits_unmixK s _ hi (by omega), mixK_bits hr2 b s (by omega), ← Bool.xor_assoc, Bool.xor_self, Bool.false_xor]

theorem state_ext {s t : Words 64 25} (h : ∀ i, i < 1600 → (strOf s.1).getD i false = (strOf t.1).getD i false) : s = t :=
  Subtype.ext (strOf_inj s.2 t.2 (ChaCha.ext_getD false
    (by rw [Hacspec.Fips202.length_strOf, Hacspec.Fips202.length_strOf]) fun i hi => h i (by rwa [Hacspec.Fips202.length_strOf] at hi)))

theorem bits_beyond (b : Bytes rate) {i : Nat} (hi : 8 * rate ≤ i) : (bits b.1).getD i false = false := by
  rw [List.getD_eq_getElem?_getD, List.getElem?_eq_none (by rw [Hacspec.Fips202.length_bits, b.2]; omega)]; rfl

theorem mixK_unmixK (s t : Words 64 25) (h : innerK rate s = innerK rate t) : mixK hr2 (unmixK rate s t) s = t := by
  refine state_ext fun i hi => ?_
  rw [mixK_bits hr2 _ s hi]
  by_cases hlt : i < 8 * rate
  · rw [bits_unmixK s t hlt hi, ← Bool.xor_assoc, Bool.xor_self, Bool.false_xor]
  · rw [bits_beyond _ (by omega), Bool.xor_false]
    exact (innerPart_eq s.2 t.2).mp h i hi (by omega)

/-- The block of zeros. -/
def zeroK (rate : Nat) : Bytes rate := ⟨List.replicate rate 0, List.length_replicate⟩

theorem mixK_zero (s : Words 64 25) : mixK hr2 (zeroK rate) s = s := by
  refine state_ext fun i hi => ?_
  have hz : (bits (zeroK rate).1).getD i false = false := by
    rw [Hacspec.Fips202.getD_bits, zeroK, List.getD_eq_getElem?_getD, List.getElem?_replicate]
    split
    · exact BitVec.getLsbD_zero
    · exact BitVec.getLsbD_zero
  rw [mixK_bits hr2 _ s hi, hz, Bool.xor_false]

/-! ## Output and rest -/

/-- The first bytes of a state and the others. -/
def splitK (rate : Nat) (s : Words 64 25) : Bytes rate × Bytes (200 - rate) :=
  (⟨outK rate s, by simp [outK]⟩, ⟨(List.range (200 - rate)).map fun j => stateByte s.1 (rate + j), by simp⟩)

include hr2 in
theorem splitK_bij : Function.Bijective (splitK rate) := by
  refine (Fintype.bijective_iff_injective_and_card _).mpr ⟨fun s t e => strOf_bytes fun j hj => ?_, ?_⟩
  · by_cases h : j < rate
    · exact map_range_eq (congrArg (fun u => u.1.1) e) h
    · have := map_range_eq (congrArg (fun u => u.2.1) e) (show j - rate < 200 - rate by omega)
      simpa only [show rate + (j - rate) = j by omega] using this
  · rw [Fintype.card_prod, card_bytes, card_bytes, ← Nat.pow_add, show rate + (200 - rate) = 200 by omega, card_words]
    decide +kernel

/-- Keccak as a sponge. -/
noncomputable def keccakSponge {Y : Type} (hr2 : rate ≤ 200) (path : Y → List (Bytes rate)) :
    Spec.Sponge (Bytes rate) (Words 64 25) (List Bool) (Bytes rate) (Bytes (200 - rate)) Y where
  mix := mixK hr2
  unmix := unmixK rate
  inner := innerK rate
  start := ⟨List.replicate 25 0, by simp⟩
  split := Equiv.ofBijective (splitK rate) (splitK_bij hr2)
  path := path

theorem keccakSponge_lawful {Y : Type} {path : Y → List (Bytes rate)} (h1 : Function.Injective path) (h2 : ∀ y, path y ≠ []) :
    Lawful (keccakSponge hr2 path) :=
  ⟨innerK_mix hr2, unmixK_mixK hr2, mixK_unmixK hr2, h1, h2⟩

/-- The rest determines the inner part. -/
theorem keccakSponge_inner {Y : Type} (path : Y → List (Bytes rate)) (d : Bytes rate) (v : List Bool) :
    share (fun r : Bytes (200 - rate) => (keccakSponge hr2 path).inner ((keccakSponge hr2 path).split.symm (d, r)) = v) ≤
      1 / 256 ^ (200 - rate) := by
  have h := share_le (c := 1) (P := fun r : Bytes (200 - rate) =>
    (keccakSponge hr2 path).inner ((keccakSponge hr2 path).split.symm (d, r)) = v) fun s hs => by
      refine Finset.card_le_one.mpr fun r hr r' hr' => ?_
      have e : innerK rate ((keccakSponge hr2 path).split.symm (d, r)) = innerK rate ((keccakSponge hr2 path).split.symm (d, r')) :=
        (hs r hr).trans (hs r' hr').symm
      have hsp : ∀ u, (splitK rate ((keccakSponge hr2 path).split.symm u)) = u := fun u => (keccakSponge hr2 path).split.apply_symm_apply u
      have e1 : (splitK rate ((keccakSponge hr2 path).split.symm (d, r))).2 =
          (splitK rate ((keccakSponge hr2 path).split.symm (d, r'))).2 := by
        refine Subtype.ext (List.map_congr_left fun j hj => ?_)
        rw [List.mem_range] at hj
        exact stateByte_of_inner e (by omega) (by omega)
      rw [hsp, hsp] at e1
      exact e1
  rw [card_bytes] at h
  push_cast at h
  exact h

/-! ## Outputs -/

theorem walk_keccak {Y : Type} (path : Y → List (Bytes rate)) (π : Equiv.Perm (Words 64 25)) (bs : List (Bytes rate)) (s t : Words 64 25)
    (h : chained (spongeStep (mixK hr2) π) s bs = .ok t) : (keccakSponge hr2 path).walk π s bs = t := by
  induction bs generalizing s with
  | nil => exact Except.ok.inj h
  | cons b bs ih =>
    rw [chained, spongeStep, bind_ok] at h
    exact ih _ h

theorem walk_zero {Y : Type} (path : Y → List (Bytes rate)) (π : Equiv.Perm (Words 64 25)) (j : Nat) (s : Words 64 25) :
    (keccakSponge hr2 path).walk π s (List.replicate j (zeroK rate)) = π^[j] s := by
  induction j generalizing s with
  | zero => rfl
  | succ j ih =>
    rw [List.replicate_succ, Spec.Sponge.walk, ih, Function.iterate_succ_apply]
    exact congrArg (fun u => π^[j] (π u)) (mixK_zero hr2 s)

end

/-- The blocks with `j` further ones. -/
def blocksTo {rate : Nat} (hr : 0 < rate) (p : U8) (m : List U8) (j : Nat) : List (Bytes rate) :=
  spongeKeys hr p m ++ List.replicate j (zeroK rate)

theorem blocksTo_inj {rate : Nat} (hr : 0 < rate) {p p' : U8} (hp : p ≠ 0#8) (hp7 : p < 128#8) (hp' : p' ≠ 0#8) (hp7' : p' < 128#8)
    {m m' : List U8} {j j' : Nat} (h : blocksTo hr p m j = blocksTo hr p' m' j') : (p = p' ∧ m = m') ∧ j = j' := by
  have hlast : ∀ (p : U8) (m : List U8), ∃ l b, spongeKeys hr p m = l ++ [b] ∧ b ≠ zeroK rate := by
    intro p m
    have hlt := Nat.mod_lt m.length hr
    have hne : spongeKeys hr p m ≠ [] := fun h => by
      have := congrArg List.length h
      rw [length_spongeKeys] at this
      simp at this
    refine ⟨(spongeKeys hr p m).dropLast, (spongeKeys hr p m).getLast hne, (List.dropLast_append_getLast hne).symm, fun e => ?_⟩
    have e1 := List.dropLast_append_getLast hne
    have e2 := map_spongeKeys hr p m
    rw [← e1, spongeBlocks_eq hr, List.map_append, List.map_singleton, e] at e2
    have e3 := (List.append_inj_right' e2 rfl)
    have e4 : (List.replicate rate 0 : List U8) = m.drop (rate * (m.length / rate)) ++ padBytes p (rate - m.length % rate) :=
      (List.cons.inj e3).1
    have hmem : ∃ x ∈ padBytes p (rate - m.length % rate), x ≠ (0 : U8) := by
      have key : ∀ x : U8, x ||| 128#8 ≠ 0#8 := by decide +kernel
      rw [padBytes]
      split
      · exact ⟨_, List.mem_singleton.mpr rfl, key p⟩
      · exact ⟨128#8, by simp, by decide⟩
    obtain ⟨x, hx, hx0⟩ := hmem
    exact hx0 (List.eq_of_mem_replicate (e4 ▸ List.mem_append_right _ hx))
  obtain ⟨l, b, e, hb⟩ := hlast p m
  obtain ⟨l', b', e', hb'⟩ := hlast p' m'
  have key : ∀ (b b' : Bytes rate) (j j' : Nat) (l l' : List (Bytes rate)), b' ≠ zeroK rate →
      l ++ [b] ++ List.replicate j (zeroK rate) = l' ++ [b'] ++ List.replicate j' (zeroK rate) → j ≤ j' := by
    intro b b' j j' l l' hb' h
    by_contra hj
    have hr := congrArg (fun l => l.reverse.getD j' b) h
    simp only [List.reverse_append, List.reverse_replicate, List.reverse_singleton] at hr
    rw [List.getD_eq_getElem?_getD, List.getD_eq_getElem?_getD, List.getElem?_append_left (by simp; omega),
      List.getElem?_append_right (by simp), List.getElem?_replicate, if_pos (by omega), List.length_replicate, Nat.sub_self] at hr
    simp at hr
    exact hb' hr.symm
  rw [blocksTo, blocksTo] at h
  have h0 := h
  rw [e, e'] at h0
  have hj : j = j' := Nat.le_antisymm (key b b' j j' l l' hb' h0) (key b' b j' j l' l hb h0.symm)
  subst hj
  exact ⟨spongeKeys_inj hr hp hp7 hp' hp7' (List.append_cancel_right h), rfl⟩

/-- The sponge from the outputs at its points. -/
theorem sponge_value {Y : Type} {rate : Nat} (hr : 0 < rate) (hr2 : rate ≤ 200) (path : Y → List (Bytes rate)) (π : Equiv.Perm (Words 64 25))
    {J : Nat} (p : U8) (m : List U8) (hm : m.length + rate < 2 ^ 64) (y : Fin J → Y) (hy : ∀ j, path (y j) = blocksTo hr p m j) {n : Nat}
    (hn : n ≤ J * rate) :
    sponge π rate m p n = .ok (((List.finRange J).flatMap fun j => ((keccakSponge hr2 path).value π (y j)).1).take n) := by
  obtain ⟨t, h1, h2⟩ := chained_sponge hr2 π (spongeKeys hr p m) ⟨List.replicate 25 0, by simp⟩
  rw [map_spongeKeys] at h2
  obtain ⟨out, h3, h4, h5⟩ := squeezed_all π hr hr2 t n
  have hv : ∀ j, ((keccakSponge hr2 path).value π (y j)).1 = outK rate (π^[j] t) := by
    intro j
    have e : (keccakSponge hr2 path).walk π (keccakSponge hr2 path).start ((keccakSponge hr2 path).path (y j)) = π^[j] t := by
      change (keccakSponge hr2 path).walk π ⟨List.replicate 25 0, by simp⟩ (path (y j)) = _
      rw [hy, blocksTo, walk_append, walk_keccak hr2 path π _ _ t h1, walk_zero]
    rw [value, e]
    rfl
  rw [sponge, keccakWith_chain hr m hm, h2, bind_ok, h3]
  congr 1
  have hlen : ((List.finRange J).flatMap fun j => ((keccakSponge hr2 path).value π (y j)).1).length = J * rate := by
    rw [List.length_flatMap]
    simp [hv, outK]
  refine ChaCha.ext_getD 0 (by rw [h4, List.length_take, hlen]; omega) fun i hi => ?_
  rw [h4] at hi
  rw [h5 i hi, List.getD_eq_getElem?_getD, List.getElem?_take, if_pos hi, ← List.getD_eq_getElem?_getD,
    Hacspec.Fips202.flatMap_finRange_getD _ (k := rate) (fun j => by rw [hv]; simp [outK]) 0 (by omega), hv, outK,
    Hacspec.Fips202.map_range_getD _ _ (Nat.mod_lt _ hr)]

end Hacspec.Ideal
