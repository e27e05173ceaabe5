import Verif.Lemmas.Ideal.SpongeGame
import Verif.Lemmas.Ideal.Sha
import Verif.Props.SpongeStructure

/-! # The sponge of Keccak with any permutation -/

namespace Hacspec.Ideal

open Spec Hacspec.Seq Hacspec.Fips202 Hacspec.Props SecretInt
open Spec.Fips202 (bits laneBits)

/-- A function that permutes lists of `n` words, as a permutation. -/
theorem perm_of_permutes {w n : Nat} {f : List (BitVec w) → M (List (BitVec w))} (hp : Permutes n f) :
    ∃ π : Equiv.Perm (Words w n), ∀ s, f s.1 = .ok (π s).1 := by
  choose g hg using fun s : Words w n => hp.1 s.1 s.2
  have hbij : Function.Bijective fun s : Words w n => (⟨g s, (hg s).2⟩ : Words w n) := by
    constructor
    · intro s s' e
      have e : g s = g s' := congrArg Subtype.val e
      obtain ⟨u, -, -, h⟩ := hp.2 (g s) (hg s).2
      exact Subtype.ext ((h s.1 s.2 (hg s).1).trans (h s'.1 s'.2 (by rw [e]; exact (hg s').1)).symm)
    · intro t
      obtain ⟨u, lu, h, -⟩ := hp.2 t.1 t.2
      exact ⟨⟨u, lu⟩, Subtype.ext (Except.ok.inj ((hg ⟨u, lu⟩).1.symm.trans h))⟩
  exact ⟨Equiv.ofBijective _ hbij, fun s => (hg s).1⟩

/-- Loops whose bodies agree where an invariant holds. -/
theorem loop_agree {σ : Type} {P : σ → Prop} {n : Nat} {b1 b2 : Nat → σ → M σ} {s : σ} (h0 : P s)
    (h : ∀ i, i < n → ∀ s, P s → b1 i s = b2 i s ∧ ∀ t, b1 i s = .ok t → P t) :
    loop n b1 s = loop n b2 s ∧ ∀ t, loop n b1 s = .ok t → P t := by
  induction n with
  | zero =>
    refine ⟨rfl, fun t ht => ?_⟩
    rw [loop_zero] at ht
    injection ht with ht
    rwa [← ht]
  | succ n ih =>
    obtain ⟨e, hP⟩ := ih fun i hi => h i (by omega)
    rw [loop_succ, loop_succ, ← e]
    cases hl : loop n b1 s with
    | error x => exact ⟨rfl, fun t ht => by rw [bind_error] at ht; injection ht⟩
    | ok u =>
      rw [bind_ok, bind_ok]
      exact h n (by omega) u (hP u hl)

/-! ## Absorbing -/

variable {f : List U64 → M (List U64)}

/-- `absorb_block` as a compression function. -/
def absorbingWith (f : List U64 → M (List U64)) (b : List U8) (s : List U64) : M (List U64) := absorbBlockWith f s b

theorem absorbWith_full {rate : Nat} (d buf : List U8) (k : Nat) (s : List U64) {n : Nat} (hn : n ≤ d.length / rate) :
    loop n (absorbStepWith f rate d) ⟨buf, k, s⟩ =
      chained (absorbingWith f) s ((List.range n).map fun i => (d.drop (rate * i)).take rate) >>= fun t => .ok ⟨buf, k, t⟩ := by
  induction n with
  | zero => rfl
  | succ n ih =>
    have hle : rate * n + rate ≤ d.length := by
      have := Nat.mul_le_mul_left rate hn
      have h' := Nat.mul_div_le d.length rate
      rw [Nat.mul_succ] at this; omega
    rw [loop_succ, ih (by omega), List.range_succ, List.map_append, chained_append]
    cases chained (absorbingWith f) s ((List.range n).map fun i => (d.drop (rate * i)).take rate) with
    | error e => rfl
    | ok t =>
      rw [bind_ok, bind_ok, bind_ok, absorbStepWith, getChunk_ok (by omega), bind_ok, absorbBranchWith]
      simp only
      rw [if_pos (by omega), List.map_singleton, chained, absorbingWith]
      cases absorbBlockWith f t ((d.drop (rate * n)).take rate) <;> rfl

theorem chained_one {B S : Type} {g : B → S → M S} (s : S) (b : B) : chained g s [b] = g b s := by
  rw [chained]
  cases g b s <;> rfl

theorem keccakWith_chain {rate : Nat} (hr : 0 < rate) (m : List U8) (hm : m.length + rate < 2 ^ 64) (p : U8) (n : Nat) :
    keccakWith f rate m p n =
      chained (absorbingWith f) (List.replicate 25 0) (spongeBlocks rate p m) >>= fun s => squeezeWith f s n rate := by
  have hdm := Nat.div_add_mod m.length rate
  have hlt := Nat.mod_lt m.length hr
  have hbl : (m.drop (rate * (m.length / rate))).length = m.length % rate := by simp; omega
  have hp := Hacspec.Fips202.padBuf_ok p (m.drop (rate * (m.length / rate))) (rate := rate) (by omega)
  rw [hbl] at hp
  rw [keccakWith, numChunks_ok hr hm, bind_ok, spongeBlocks_eq hr, chained_append]
  have hfull := absorbWith_full (f := f) m (new rate) 0 (List.replicate 25 0) (Nat.le_refl (m.length / rate))
  have hinit : (⟨new rate, 0, new 25⟩ : Sponge) = ⟨new rate, 0, List.replicate 25 0⟩ := rfl
  by_cases h : m.length % rate = 0
  · have e : (m.length + rate - 1) / rate = m.length / rate := by
      rw [show m.length + rate - 1 = rate * (m.length / rate) + (rate - 1) by omega, Nat.mul_add_div hr,
        Nat.div_eq_of_lt (show rate - 1 < rate by omega), Nat.add_zero]
    rw [e, hinit, hfull]
    cases chained (absorbingWith f) (List.replicate 25 0) ((List.range (m.length / rate)).map fun i => (m.drop (rate * i)).take rate) with
    | error e => rfl
    | ok t =>
      rw [bind_ok, bind_ok, bind_ok, chained_one]
      have hbuf : (new rate : List U8) = m.drop (rate * (m.length / rate)) ++ List.replicate (rate - m.length % rate) 0 := by
        rw [h, List.drop_of_length_le (by omega), List.nil_append]; rfl
      simp only
      rw [hbuf]
      rw [h] at hp ⊢
      rw [hp, bind_ok]
      rfl
  · have e : (m.length + rate - 1) / rate = m.length / rate + 1 := by
      rw [show m.length + rate - 1 = rate * (m.length / rate) + (rate + (m.length % rate - 1)) by omega,
        Nat.mul_add_div hr, Nat.add_div_left _ hr, Nat.div_eq_of_lt (show m.length % rate - 1 < rate by omega)]
    have hb : ((m.drop (rate * (m.length / rate))).take rate) = m.drop (rate * (m.length / rate)) :=
      List.take_of_length_le (by simp; omega)
    rw [e, loop_succ, hinit, hfull]
    cases chained (absorbingWith f) (List.replicate 25 0) ((List.range (m.length / rate)).map fun i => (m.drop (rate * i)).take rate) with
    | error e => rfl
    | ok t =>
      rw [bind_ok, bind_ok, bind_ok, chained_one, absorbStepWith, getChunk_ok (by omega), bind_ok, absorbBranchWith]
      simp only
      rw [if_neg (by omega), hb, updateStart_new (by omega), bind_ok, bind_ok, hbl,
        show min rate (m.length - rate * (m.length / rate)) = m.length % rate by omega]
      have hz : (default : U8) = 0 := rfl
      simp only
      rw [hz, hp, bind_ok]
      rfl

/-- The bits of a state after a block is mixed in. -/
theorem absorb_bits {s : List U64} (hs : s.length = 25) {b : List U8} (hb : b.length ≤ 200) :
    ∃ t, t.length = 25 ∧ loop b.length (absorbByte b) s = .ok t ∧
      ∀ i, i < 1600 → (strOf t).getD i false = ((strOf s).getD i false ^^ (bits b).getD i false) := by
  obtain ⟨t, h1, h2, h3⟩ := Hacspec.Fips202.absorbBytes_ok hs hb
  refine ⟨t, h2, h1, fun i hi => ?_⟩
  have hl : (bits b ++ List.replicate (1600 - 8 * b.length) false).length = 1600 := by
    rw [List.length_append, Hacspec.Fips202.length_bits, List.length_replicate]; omega
  have hz : ∀ a b : List Bool, i < a.length → i < b.length →
      (List.zipWith (· ^^ ·) a b).getD i false = (a.getD i false ^^ b.getD i false) := by
    intro a b ha hb
    simp only [List.getD_eq_getElem?_getD, List.getElem?_zipWith, List.getElem?_eq_getElem ha,
      List.getElem?_eq_getElem hb]
    rfl
  rw [h3, hz _ _ (by rwa [Hacspec.Fips202.length_strOf]) (by rwa [hl])]
  have e : (bits b ++ List.replicate (1600 - 8 * b.length) false).getD i false = (bits b).getD i false := by
    by_cases h : i < (bits b).length
    · rw [getD_append_lt h]
    · rw [List.getD_eq_getElem?_getD, List.getElem?_append_right (by omega), List.getElem?_replicate,
        List.getD_eq_getElem?_getD, List.getElem?_eq_none (by omega)]
      split <;> rfl
  rw [e]

section Mix

variable {rate : Nat} (hr : rate ≤ 200)

include hr in
theorem mix_exists (b : Bytes rate) (s : Words 64 25) : ∃ t : Words 64 25, loop b.1.length (absorbByte b.1) s.1 = .ok t.1 ∧
    ∀ i, i < 1600 → (strOf t.1).getD i false = ((strOf s.1).getD i false ^^ (bits b.1).getD i false) := by
  obtain ⟨t, h1, h2, h3⟩ := absorb_bits s.2 (b := b.1) (by rw [b.2]; exact hr)
  exact ⟨⟨t, h1⟩, h2, h3⟩

/-- A state with a block mixed in. -/
noncomputable def mixK (b : Bytes rate) (s : Words 64 25) : Words 64 25 := (mix_exists hr b s).choose

theorem mixK_loop (b : Bytes rate) (s : Words 64 25) : loop b.1.length (absorbByte b.1) s.1 = .ok (mixK hr b s).1 :=
  (mix_exists hr b s).choose_spec.1

theorem mixK_bits (b : Bytes rate) (s : Words 64 25) {i : Nat} (hi : i < 1600) :
    (strOf (mixK hr b s).1).getD i false = ((strOf s.1).getD i false ^^ (bits b.1).getD i false) :=
  (mix_exists hr b s).choose_spec.2 i hi

/-- The inner part. -/
def innerK (rate : Nat) (s : Words 64 25) : List Bool := innerPart rate s.1

theorem innerK_mix (b : Bytes rate) (s : Words 64 25) : innerK rate (mixK hr b s) = innerK rate s := by
  rw [innerK, innerK, innerPart_eq (mixK hr b s).2 s.2]
  intro i hi hri
  have z : (bits b.1).getD i false = false := by
    rw [List.getD_eq_getElem?_getD, List.getElem?_eq_none (by rw [Hacspec.Fips202.length_bits, b.2]; omega)]; rfl
  rw [mixK_bits hr b s hi, z, Bool.xor_false]

theorem mixK_inj (b b' : Bytes rate) (s : Words 64 25) (h : mixK hr b s = mixK hr b' s) : b = b' := by
  refine Subtype.ext (bits_eq (by rw [b.2, b'.2]) fun i hi => ?_)
  have hi : i < 1600 := by rw [b.2] at hi; omega
  have := mixK_bits hr b s hi
  rw [h, mixK_bits hr b' s hi] at this
  exact (Bool.xor_right_inj.mp this).symm

theorem chained_sponge (π : Equiv.Perm (Words 64 25)) (bs : List (Bytes rate)) (s : Words 64 25) :
    ∃ t, chained (spongeStep (mixK hr) π) s bs = .ok t ∧
      chained (absorbingWith (keccakPerm π)) s.1 (bs.map Subtype.val) = .ok t.1 := by
  induction bs generalizing s with
  | nil => exact ⟨s, rfl, rfl⟩
  | cons b bs ih =>
    obtain ⟨t, h1, h2⟩ := ih (π (mixK hr b s))
    refine ⟨t, ?_, ?_⟩
    · rw [chained, spongeStep, bind_ok, h1]
    · rw [List.map_cons, chained, absorbingWith, absorbBlockWith, mixK_loop hr, bind_ok, keccakPerm, dif_pos (mixK hr b s).2, bind_ok]
      exact h2

end Mix

/-- The blocks, with their length. -/
def spongeKeys {rate : Nat} (hr : 0 < rate) (p : U8) (m : List U8) : List (Bytes rate) :=
  (spongeBlocks rate p m).pmap Subtype.mk fun _ => length_of_mem_spongeBlocks hr

theorem map_spongeKeys {rate : Nat} (hr : 0 < rate) (p : U8) (m : List U8) :
    (spongeKeys hr p m).map Subtype.val = spongeBlocks rate p m := by
  rw [spongeKeys, List.map_pmap, List.pmap_eq_map, List.map_id']

theorem length_spongeKeys {rate : Nat} (hr : 0 < rate) (p : U8) (m : List U8) : (spongeKeys hr p m).length = m.length / rate + 1 := by
  rw [← List.length_map (f := Subtype.val), map_spongeKeys, spongeBlocks, length_fullBlocks, length_spongePad hr,
    Nat.mul_div_cancel_left _ hr]

theorem spongeKeys_inj {rate : Nat} (hr : 0 < rate) {p p' : U8} (hp : p ≠ 0#8) (hp7 : p < 128#8) (hp' : p' ≠ 0#8)
    (hp7' : p' < 128#8) {m m' : List U8} (h : spongeKeys hr p m = spongeKeys hr p' m') : p = p' ∧ m = m' := by
  have h := congrArg (List.map Subtype.val) h
  rw [map_spongeKeys, map_spongeKeys] at h
  exact C83_blocks_injective rate hr p p' hp hp7 hp' hp7' m m' h

/-! ## Squeezing -/

/-- The first bytes of a state. -/
def outK (n : Nat) (s : Words 64 25) : List U8 := (List.range n).map (stateByte s.1)

theorem squeezed (π : Equiv.Perm (Words 64 25)) {rate : Nat} (hr : 0 < rate) (hr2 : rate ≤ 200) (s : Words 64 25) (n : Nat) :
    ∃ out, squeezeWith (keccakPerm π) s.1 n rate = .ok out ∧ out.take (min n rate) = outK (min n rate) s := by
  obtain ⟨st, h1, h2, h3, h4, -⟩ := loop_inv (n := n) (body := squeezeStepWith (keccakPerm π) rate) (s := (s.1, (new n : List U8)))
    (fun k st => st.1.length = 25 ∧ st.2.length = n ∧ (∀ i, i < k → i < rate → st.2.getD i 0 = stateByte s.1 i) ∧
      (k < rate → st.1 = s.1))
    ⟨s.2, length_new n, fun i hi => absurd hi (Nat.not_lt_zero i), fun _ => rfl⟩
    (fun k hk st ⟨h2, h3, h4, h5⟩ => by
      have hlt := Nat.mod_lt k hr
      let o := st.2.set k (castU 8 (((st.1.getD (k % rate / 8) 0) >>> (8 * (k % rate % 8))) &&& classify 0xff#64))
      have hby : ∀ i, i < k + 1 → i < rate → o.getD i 0 = stateByte s.1 i := by
        intro i hi hri
        simp only [o]
        rw [ChaCha.getD_set]
        by_cases h : k = i
        · subst h
          rw [if_pos ⟨rfl, by omega⟩, h5 hri, Nat.mod_eq_of_lt hri, stateByte, castU]
          refine BitVec.eq_of_getLsbD_eq fun b hb => ?_
          rw [BitVec.getLsbD_setWidth, BitVec.getLsbD_setWidth, BitVec.getLsbD_and]
          have hff : (classify 0xff#64 : U64).getLsbD b = true := by
            revert b; decide
          rw [hff, Bool.and_true]
        · rw [if_neg (fun c => h c.1), h4 i (by omega) hri]
      have hstep : squeezeStepWith (keccakPerm π) rate k st = squeezeNextWith (keccakPerm π) k rate st.1 >>= fun s' => .ok (s', o) := by
        rw [squeezeStepWith, idx_getD 0 (by omega), bind_ok, shrU, if_pos (by omega), bind_ok, setIdx_ok (by omega), bind_ok]
      have ho : o.length = n := by simp only [o]; rw [List.length_set, h3]
      rw [hstep, squeezeNextWith]
      by_cases h : (k + 1) % rate = 0
      · refine ⟨((π ⟨st.1, h2⟩).1, o), by rw [if_pos h, keccakPerm, dif_pos h2, bind_ok], (π ⟨st.1, h2⟩).2, ho, hby, fun hk' => ?_⟩
        rw [Nat.mod_eq_of_lt hk'] at h
        omega
      · exact ⟨(st.1, o), by rw [if_neg h, bind_ok], h2, ho, hby, fun hk' => h5 (by omega)⟩)
  refine ⟨st.2, by rw [squeezeWith, h1, bind_ok], ?_⟩
  refine ChaCha.ext_getD 0 ?_ fun i hi => ?_
  · rw [outK, List.length_take, List.length_map, List.length_range, h3]; omega
  · rw [List.length_take, h3] at hi
    rw [List.getD_eq_getElem?_getD, List.getElem?_take, if_pos (by omega), ← List.getD_eq_getElem?_getD, h4 i (by omega) (by omega),
      outK, List.getD_eq_getElem?_getD, List.getElem?_map, List.getElem?_range (by omega)]
    rfl

/-- The sponge from its last state. -/
theorem sponge_ok (π : Equiv.Perm (Words 64 25)) {rate : Nat} (hr : 0 < rate) (hr2 : rate ≤ 200) {m : List U8}
    (hm : m.length + rate < 2 ^ 64) (p : U8) (n : Nat) :
    ∃ t out, chained (spongeStep (mixK hr2) π) ⟨List.replicate 25 0, by simp⟩ (spongeKeys hr p m) = .ok t ∧
      sponge π rate m p n = .ok out ∧ out.take (min n rate) = outK (min n rate) t := by
  obtain ⟨t, h1, h2⟩ := chained_sponge hr2 π (spongeKeys hr p m) ⟨List.replicate 25 0, by simp⟩
  rw [map_spongeKeys] at h2
  obtain ⟨out, h3, h4⟩ := squeezed π hr hr2 t n
  exact ⟨t, out, h1, by rw [sponge, keccakWith_chain hr m hm, h2, bind_ok, h3], h4⟩

/-- The sponge with a function that permutes the states. -/
theorem sponge_agree {π : Equiv.Perm (Words 64 25)} (hf : ∀ s : Words 64 25, f s.1 = .ok (π s).1) {rate : Nat} (hr : 0 < rate)
    (hr2 : rate ≤ 200) {m : List U8} (hm : m.length + rate < 2 ^ 64) (p : U8) (n : Nat) :
    sponge π rate m p n = keccakWith f rate m p n := by
  have key : ∀ (ks : List (Bytes rate)) (s : Words 64 25), chained (absorbingWith f) s.1 (ks.map Subtype.val) =
      chained (absorbingWith (keccakPerm π)) s.1 (ks.map Subtype.val) := by
    intro ks
    induction ks with
    | nil => exact fun s => rfl
    | cons k ks ih =>
      intro s
      rw [List.map_cons, chained, chained, absorbingWith, absorbBlockWith, mixK_loop hr2, bind_ok, hf, bind_ok, absorbingWith, absorbBlockWith,
        mixK_loop hr2, bind_ok, keccakPerm, dif_pos (mixK hr2 k s).2, bind_ok]
      exact ih _
  have hs : ∀ s : Words 64 25, squeezeWith (keccakPerm π) s.1 n rate = squeezeWith f s.1 n rate := by
    intro s
    rw [squeezeWith, squeezeWith]
    refine congrArg (· >>= _) (loop_agree (P := fun st : List U64 × List U8 => st.1.length = 25) s.2 fun i _ st hst => ?_).1
    have e : squeezeNextWith f i rate st.1 = squeezeNextWith (keccakPerm π) i rate st.1 := by
      rw [squeezeNextWith, squeezeNextWith, keccakPerm, dif_pos hst, hf ⟨st.1, hst⟩]
    have e2 : ∃ t, squeezeNextWith (keccakPerm π) i rate st.1 = .ok t ∧ t.length = 25 := by
      rw [squeezeNextWith]
      split
      · exact ⟨_, by rw [keccakPerm, dif_pos hst], (π ⟨st.1, hst⟩).2⟩
      · exact ⟨_, rfl, hst⟩
    obtain ⟨u, hu, lu⟩ := e2
    rw [squeezeStepWith, squeezeStepWith, e, hu]
    refine ⟨rfl, fun t ht => ?_⟩
    obtain ⟨x, -, ht⟩ := bind_eq_ok.mp ht
    obtain ⟨y, -, ht⟩ := bind_eq_ok.mp ht
    obtain ⟨o, -, ht⟩ := bind_eq_ok.mp ht
    rw [bind_ok] at ht
    injection ht with ht
    rw [← ht]
    exact lu
  rw [sponge, keccakWith_chain hr m hm, keccakWith_chain hr m hm, ← map_spongeKeys hr]
  have h2 := key (spongeKeys hr p m) ⟨List.replicate 25 0, by simp⟩
  obtain ⟨t, -, h3⟩ := chained_sponge hr2 π (spongeKeys hr p m) ⟨List.replicate 25 0, by simp⟩
  simp only at h2 h3
  rw [h2, h3, bind_ok, bind_ok, hs]

/-! ## Counting -/

theorem strOf_bytes {s t : Words 64 25} (h : ∀ j, j < 200 → stateByte s.1 j = stateByte t.1 j) : s = t := by
  refine Subtype.ext (strOf_inj s.2 t.2 (ChaCha.ext_getD false
    (by rw [Hacspec.Fips202.length_strOf, Hacspec.Fips202.length_strOf]) fun i hi => ?_))
  rw [Hacspec.Fips202.length_strOf] at hi
  rw [← getLsbD_stateByte _ hi, ← getLsbD_stateByte _ hi, h (i / 8) (by omega)]

theorem stateByte_of_inner {rate : Nat} {s t : Words 64 25} (h : innerK rate s = innerK rate t) {j : Nat} (hj : j < 200)
    (hr : rate ≤ j) : stateByte s.1 j = stateByte t.1 j := by
  have h := (innerPart_eq s.2 t.2).mp h
  refine BitVec.eq_of_getLsbD_eq fun b hb => ?_
  have e : ∀ u : List U64, (stateByte u j).getLsbD b = (strOf u).getD (8 * j + b) false := by
    intro u
    rw [← getLsbD_stateByte _ (show 8 * j + b < 1600 by omega), show (8 * j + b) / 8 = j by omega,
      show (8 * j + b) % 8 = b by omega]
  rw [e, e, h _ (by omega) (by omega)]

theorem map_range_eq {g h : Nat → U8} {n : Nat} (e : (List.range n).map g = (List.range n).map h) {j : Nat} (hj : j < n) : g j = h j := by
  have := congrArg (fun l => l.getD j 0) e
  simpa only [List.getD_eq_getElem?_getD, List.getElem?_map, List.getElem?_range hj, Option.map_some, Option.getD_some] using this

theorem card_le_of_inj {α β : Type} [Fintype α] [Fintype β] (P : α → Prop) [DecidablePred P] (g : α → β)
    (h : ∀ a b, P a → P b → g a = g b → a = b) : (Finset.univ.filter P).card ≤ Fintype.card β := by
  rw [← Finset.card_univ]
  refine Finset.card_le_card_of_injOn g (fun _ _ => Finset.mem_coe.mpr (Finset.mem_univ _)) fun a ha b hb e => ?_
  exact h a b (Finset.mem_filter.mp (Finset.mem_coe.mp ha)).2 (Finset.mem_filter.mp (Finset.mem_coe.mp hb)).2 e

open Classical in
theorem card_inner {rate : Nat} (v : List Bool) :
    (Finset.univ.filter fun s : Words 64 25 => innerK rate s = v).card ≤ 256 ^ rate := by
  rw [← card_bytes rate]
  refine card_le_of_inj (fun s : Words 64 25 => innerK rate s = v)
    (fun s => (⟨(List.range rate).map (stateByte s.1), by simp⟩ : Bytes rate)) fun s t hs ht e => strOf_bytes fun j hj => ?_
  by_cases h : j < rate
  · exact map_range_eq (congrArg Subtype.val e) h
  · exact stateByte_of_inner (hs.trans ht.symm) hj (by omega)

open Classical in
theorem card_out {k : Nat} (d : List U8) :
    (Finset.univ.filter fun s : Words 64 25 => outK k s = d).card ≤ 256 ^ (200 - k) := by
  rw [← card_bytes (200 - k)]
  refine card_le_of_inj (fun s : Words 64 25 => outK k s = d)
    (fun s => (⟨(List.range (200 - k)).map fun j => stateByte s.1 (k + j), by simp⟩ : Bytes (200 - k)))
    fun s t hs ht e => strOf_bytes fun j hj => ?_
  by_cases h : j < k
  · exact map_range_eq (hs.trans ht.symm) h
  · have := map_range_eq (congrArg Subtype.val e) (show j - k < 200 - k by omega)
    simpa only [show k + (j - k) = j by omega] using this

end Hacspec.Ideal
