import Verif.Props.Fips202s
import Verif.Lemmas.Calls

/-! # C83: the sponge of SHA-3 and SHAKE -/

namespace Hacspec.Props

open SecretInt Spec Hacspec.Seq
open Spec.Fips202 (bits laneBits)
open Hacspec.Fips202 (strOf absorbBlock squeeze keccak keccakf1600 padBytes)

/-- `absorb_block` as a compression function. -/
def absorbing (b : List U8) (s : List U64) : M (List U64) := absorbBlock s b

/-- The padded message: the byte `p`, zeros up to a multiple of the rate, and the highest bit of the last byte. -/
def spongePad (rate : Nat) (p : U8) (m : List U8) : List U8 :=
  let q := rate - m.length % rate
  m ++ if q = 1 then [p ||| 128#8] else p :: (List.replicate (q - 2) 0#8 ++ [128#8])

/-- The blocks that `keccak` absorbs. -/
def spongeBlocks (rate : Nat) (p : U8) (m : List U8) : List (List U8) := fullBlocks rate (spongePad rate p m)

/-- The inputs of `absorb_block` for a message. -/
def spongeCalls (rate : Nat) (p : U8) (m : List U8) : List (List U8 × List U64) :=
  callsFrom absorbing (List.replicate 25 0) (spongeBlocks rate p m)

/-- The bits of the state that are not affected by a block of `rate` bytes. -/
def innerPart (rate : Nat) (s : List U64) : List Bool := (laneBits s).drop (8 * rate)

/-- Two computations reach different states with the same inner part. -/
def InnerCollision (rate : Nat) (l l' : List (List U8 × List U64)) : Prop :=
  ∃ x ∈ l, ∃ y ∈ l', x.2 ≠ y.2 ∧ innerPart rate x.2 = innerPart rate y.2

/-! ## Strings -/

theorem strOf_inj {s t : List U64} (hs : s.length = 25) (ht : t.length = 25) (h : strOf s = strOf t) : s = t := by
  refine ChaCha.ext_getD 0 (by omega) fun j hj => BitVec.eq_of_getLsbD_eq fun i hi => ?_
  have := congrArg (fun l => l.getD (64 * j + i) false) h
  simp only [Hacspec.Fips202.getD_strOf _ (show 64 * j + i < 1600 by omega)] at this
  rwa [show (64 * j + i) / 64 = j by omega, show (64 * j + i) % 64 = i by omega] at this

/-- The state before the permutation. -/
theorem absorbing_xor {s : List U64} (hs : s.length = 25) {b : List U8} (hb : b.length ≤ 200) :
    ∃ t, t.length = 25 ∧ absorbing b s = keccakf1600 t ∧
      ∀ i, i < 1600 → (strOf t).getD i false = ((strOf s).getD i false ^^ (bits b).getD i false) := by
  obtain ⟨t, h1, h2, h3⟩ := Hacspec.Fips202.absorbBytes_ok hs hb
  refine ⟨t, h2, by rw [absorbing, absorbBlock, h1, bind_ok], fun i hi => ?_⟩
  have hl : (bits b ++ List.replicate (1600 - 8 * b.length) false).length = 1600 := by
    rw [List.length_append, Hacspec.Fips202.length_bits, List.length_replicate]; omega
  have hz : ∀ a b : List Bool, i < a.length → i < b.length →
      (List.zipWith (· ^^ ·) a b).getD i false = (a.getD i false ^^ b.getD i false) := by
    intro a b ha hb
    simp only [List.getD_eq_getElem?_getD, List.getElem?_zipWith, List.getElem?_eq_getElem ha,
      List.getElem?_eq_getElem hb]
    rfl
  rw [h3, hz _ _ (by rwa [Hacspec.Fips202.length_strOf]) (by rwa [hl])]
  have e : (bits b ++ List.replicate (1600 - 8 * b.length) false).getD i false = (bits b).getD i false := by
    by_cases h : i < (bits b).length
    · rw [getD_append_lt h]
    · rw [List.getD_eq_getElem?_getD, List.getElem?_append_right (by omega), List.getElem?_replicate,
        List.getD_eq_getElem?_getD, List.getElem?_eq_none (by omega)]
      split <;> rfl
  rw [e]

theorem permutes_eq {f : List U64 → M (List U64)} (h : Permutes 25 f) {s t u : List U64} (hs : s.length = 25)
    (ht : t.length = 25) (h1 : f s = .ok u) (h2 : f t = .ok u) : s = t := by
  obtain ⟨v, h3, h4⟩ := h.1 s hs
  obtain rfl : u = v := by rw [h1] at h3; injection h3
  obtain ⟨w, -, -, h5⟩ := h.2 u h4
  rw [h5 s hs h1, h5 t ht h2]

theorem bits_eq {a b : List U8} (hl : a.length = b.length)
    (h : ∀ i, i < 8 * a.length → (bits a).getD i false = (bits b).getD i false) : a = b := by
  refine Hacspec.Fips202.bits_inj (ChaCha.ext_getD false ?_ fun i hi => h i ?_)
  · rw [Hacspec.Fips202.length_bits, Hacspec.Fips202.length_bits, hl]
  · rwa [Hacspec.Fips202.length_bits] at hi

/-- One result of `absorb_block` for two states and blocks: the difference of the states is that of the blocks. -/
theorem absorbing_eq {s s' : List U64} (hs : s.length = 25) (hs' : s'.length = 25) {b b' : List U8} (hb : b.length ≤ 200)
    (hb' : b'.length ≤ 200) :
    absorbing b s = absorbing b' s' ↔
      ∀ i, i < 1600 → ((strOf s).getD i false ^^ (bits b).getD i false) = ((strOf s').getD i false ^^ (bits b').getD i false) := by
  obtain ⟨t, h1, h2, h3⟩ := absorbing_xor hs hb
  obtain ⟨t', h1', h2', h3'⟩ := absorbing_xor hs' hb'
  rw [h2, h2']
  constructor
  · intro h i hi
    obtain ⟨u, h4, -⟩ := C48_permutation.1 t h1
    have := permutes_eq C48_permutation h1 h1' h4 (by rw [← h, h4])
    rw [← h3 i hi, ← h3' i hi, this]
  · intro h
    rw [strOf_inj h1 h1' (ChaCha.ext_getD false (by rw [Hacspec.Fips202.length_strOf, Hacspec.Fips202.length_strOf])
      fun i hi => by
        rw [Hacspec.Fips202.length_strOf] at hi
        rw [h3 i hi, h3' i hi, h i hi])]

theorem innerPart_eq {rate : Nat} {s s' : List U64} (hs : s.length = 25) (hs' : s'.length = 25) :
    innerPart rate s = innerPart rate s' ↔
      ∀ i, i < 1600 → 8 * rate ≤ i → (strOf s).getD i false = (strOf s').getD i false := by
  rw [innerPart, innerPart, ← strOf_laneBits hs, ← strOf_laneBits hs']
  constructor
  · intro h i hi hr
    have := congrArg (fun l => l.getD (i - 8 * rate) false) h
    simp only [List.getD_eq_getElem?_getD, List.getElem?_drop] at this
    rwa [show 8 * rate + (i - 8 * rate) = i by omega, ← List.getD_eq_getElem?_getD, ← List.getD_eq_getElem?_getD] at this
  · intro h
    refine ChaCha.ext_getD false (by simp [Hacspec.Fips202.length_strOf]) fun i hi => ?_
    rw [List.length_drop, Hacspec.Fips202.length_strOf] at hi
    simp only [List.getD_eq_getElem?_getD, List.getElem?_drop]
    simpa only [List.getD_eq_getElem?_getD] using h (8 * rate + i) (by omega) (by omega)

/-! ## The blocks -/

theorem spongePad_eq (rate : Nat) (p : U8) (m : List U8) : spongePad rate p m = m ++ padBytes p (rate - m.length % rate) := rfl

theorem length_spongePad {rate : Nat} (hr : 0 < rate) (p : U8) (m : List U8) :
    (spongePad rate p m).length = rate * (m.length / rate + 1) := by
  have := Nat.div_add_mod m.length rate
  have := Nat.mod_lt m.length hr
  rw [spongePad_eq, List.length_append, Hacspec.Fips202.length_padBytes _ (by omega), Nat.mul_succ]; omega

theorem spongeBlocks_eq {rate : Nat} (hr : 0 < rate) (p : U8) (m : List U8) :
    spongeBlocks rate p m = ((List.range (m.length / rate)).map fun i => (m.drop (rate * i)).take rate) ++
      [m.drop (rate * (m.length / rate)) ++ padBytes p (rate - m.length % rate)] := by
  have hdm := Nat.div_add_mod m.length rate
  have hlt := Nat.mod_lt m.length hr
  have hlen := length_spongePad hr p m
  rw [spongeBlocks, fullBlocks, hlen, Nat.mul_div_cancel_left _ hr, List.range_succ, List.map_append]
  congr 1
  · apply List.map_congr_left
    intro i hi
    rw [List.mem_range] at hi
    have hle : rate * i + rate ≤ rate * (m.length / rate) := mul_window hi
    rw [spongePad_eq, List.drop_append_of_le_length (by omega), List.take_append_of_le_length (by simp; omega)]
  · rw [List.map_singleton, List.take_of_length_le (by rw [List.length_drop, hlen, Nat.mul_succ]; omega), spongePad_eq,
      List.drop_append_of_le_length (by omega)]

theorem length_of_mem_spongeBlocks {rate : Nat} (hr : 0 < rate) {p : U8} {m b : List U8} (h : b ∈ spongeBlocks rate p m) :
    b.length = rate := by
  have hlen := length_spongePad hr p m
  rw [spongeBlocks, fullBlocks, hlen, Nat.mul_div_cancel_left _ hr, List.mem_map] at h
  obtain ⟨i, hi, rfl⟩ := h
  rw [List.mem_range] at hi
  have hle : rate * i + rate ≤ rate * (m.length / rate + 1) := mul_window hi
  rw [List.length_take, List.length_drop, hlen]; omega

theorem chained_ok {rate : Nat} (hr : rate ≤ 200) (bs : List (List U8)) (hb : ∀ b ∈ bs, b.length = rate) {s : List U64}
    (hs : s.length = 25) : ∃ t, chained absorbing s bs = .ok t ∧ t.length = 25 ∧
      strOf t = bs.foldl (fun S b => Hacspec.Fips202.stepS (8 * rate) S (bits b)) (strOf s) := by
  induction bs generalizing s with
  | nil => exact ⟨s, rfl, hs, by rw [List.foldl_nil]⟩
  | cons b bs ih =>
    have hl := hb b (List.mem_cons_self ..)
    obtain ⟨t, h1, h2, h3⟩ := Hacspec.Fips202.absorbBlock_ok hs (block := b) (by omega)
    obtain ⟨u, h4, h5, h6⟩ := ih (fun b h => hb b (List.mem_cons_of_mem _ h)) h2
    exact ⟨u, by rw [chained, absorbing, h1, bind_ok, h4], h5, by rw [h6, h3, hl, List.foldl_cons]⟩

/-- **C83.**  `spongeBlocks` are the blocks of the computation: `keccak` squeezes the state that results from absorbing
them. -/
theorem C83_chain (rate : Nat) (hr : 0 < rate) (hr2 : rate ≤ 200) (m : List U8) (hm : m.length + rate < 2 ^ 64) (p : U8)
    (n : Nat) :
    ∃ s, chained absorbing (List.replicate 25 0) (spongeBlocks rate p m) = .ok s ∧ s.length = 25 ∧
      keccak rate m p n = squeeze s n rate := by
  have hdm := Nat.div_add_mod m.length rate
  have hlt := Nat.mod_lt m.length hr
  obtain ⟨st, h1, h2, h3, h4, h5⟩ := Hacspec.Fips202.absorb_ok hr hr2 m
  have hbl : (m.drop (rate * (m.length / rate))).length = m.length % rate := by simp; omega
  have hp := Hacspec.Fips202.padBuf_ok p (m.drop (rate * (m.length / rate))) (rate := rate) (by omega)
  rw [hbl] at hp
  have hlen : (m.drop (rate * (m.length / rate)) ++ padBytes p (rate - m.length % rate)).length = rate := by
    rw [List.length_append, hbl, Hacspec.Fips202.length_padBytes _ (by omega)]; omega
  obtain ⟨t, h6, h7, h8⟩ := Hacspec.Fips202.absorbBlock_ok h4 (by rw [hlen]; exact hr2)
  obtain ⟨u, h9, h10, h11⟩ := chained_ok hr2 (spongeBlocks rate p m) (fun b => length_of_mem_spongeBlocks hr)
    (s := List.replicate 25 0) (by simp)
  have e : u = t := by
    refine strOf_inj h10 h7 ?_
    rw [h11, h8, hlen, h5, spongeBlocks_eq hr, List.foldl_append, List.foldl_map, Hacspec.Fips202.chainS,
      ← Hacspec.Fips202.strOf_new]
    rfl
  subst e
  exact ⟨u, h9, h10, by rw [keccak, numChunks_ok hr hm, bind_ok, h1, bind_ok, h2, h3, hp, bind_ok, h6, bind_ok]⟩

/-! ## Padding and domain separation -/

/-- The padding is read from its end. -/
theorem spongePad_inj {rate : Nat} {p p' : U8} (hp : p ≠ 0#8) (hp7 : p < 128#8) (hp' : p' ≠ 0#8) (hp7' : p' < 128#8)
    {m m' : List U8} (h : spongePad rate p m = spongePad rate p' m') : p = p' ∧ m = m' := by
  have key : ∀ (x y : U8), x ≠ 0#8 → x < 128#8 → y ≠ 0#8 → y < 128#8 → ((x ||| 128#8 = y ||| 128#8 → x = y) ∧
      x ||| 128#8 ≠ 128#8) := by decide +kernel
  have strip : ∀ (a b : List U8) (x y : U8) (i j : Nat), x ≠ 0#8 → y ≠ 0#8 →
      a ++ x :: List.replicate i 0#8 = b ++ y :: List.replicate j 0#8 → x = y ∧ a = b := by
    intro a b x y i j hx hy h₀
    have h := congrArg List.reverse h₀
    simp only [List.reverse_append, List.reverse_cons, List.reverse_replicate, List.append_assoc] at h
    clear * - hx hy h
    induction i generalizing j with
    | zero =>
      cases j with
      | zero =>
        simp only [List.replicate_zero, List.nil_append, List.cons_append] at h
        injection h with h1 h2
        exact ⟨h1, List.reverse_inj.mp h2⟩
      | succ j =>
        rw [List.replicate_succ] at h
        simp only [List.replicate_zero, List.nil_append, List.cons_append] at h
        injection h with h1 h2
        exact absurd h1 hx
    | succ i ih =>
      cases j with
      | zero =>
        rw [List.replicate_succ] at h
        simp only [List.replicate_zero, List.nil_append, List.cons_append] at h
        injection h with h1 h2
        exact absurd h1.symm hy
      | succ j =>
        rw [List.replicate_succ, List.replicate_succ, List.cons_append, List.cons_append] at h
        injection h with h1 h2
        exact ih j h2
  simp only [spongePad] at h
  split at h <;> split at h
  · obtain ⟨h1, h2⟩ := List.append_inj' h rfl
    injection h2 with h2
    exact ⟨(key p p' hp hp7 hp' hp7').1 h2, h1⟩
  · rw [show ∀ l : List U8, m' ++ p' :: (l ++ [128#8]) = (m' ++ p' :: l) ++ [128#8] by simp] at h
    obtain ⟨h1, h2⟩ := List.append_inj' h rfl
    injection h2 with h2
    exact absurd h2 (key p p' hp hp7 hp' hp7').2
  · rw [show ∀ l : List U8, m ++ p :: (l ++ [128#8]) = (m ++ p :: l) ++ [128#8] by simp] at h
    obtain ⟨h1, h2⟩ := List.append_inj' h rfl
    injection h2 with h2
    exact absurd h2.symm (key p' p hp' hp7' hp hp7).2
  · rw [show ∀ l : List U8, m ++ p :: (l ++ [128#8]) = (m ++ p :: l) ++ [128#8] by simp,
      show ∀ l : List U8, m' ++ p' :: (l ++ [128#8]) = (m' ++ p' :: l) ++ [128#8] by simp] at h
    obtain ⟨h1, h2⟩ := List.append_inj' h rfl
    exact strip m m' p p' _ _ hp hp' h1

/-- **C83.**  The absorbed blocks determine the message and the byte `p`: at one rate no message of SHA-3 is absorbed like one
of SHAKE, whatever the lengths. -/
theorem C83_blocks_injective (rate : Nat) (hr : 0 < rate) (p p' : U8) (hp : p ≠ 0#8) (hp7 : p < 128#8) (hp' : p' ≠ 0#8)
    (hp7' : p' < 128#8) (m m' : List U8) (h : spongeBlocks rate p m = spongeBlocks rate p' m') : p = p' ∧ m = m' := by
  have := congrArg List.flatten h
  rw [spongeBlocks, spongeBlocks, flatten_fullBlocks _ _ (by rw [length_spongePad hr, Nat.mul_mod_right]),
    flatten_fullBlocks _ _ (by rw [length_spongePad hr, Nat.mul_mod_right])] at this
  exact spongePad_inj hp hp7 hp' hp7' this

/-- SHA3-256 and SHAKE256 have the rate 136. -/
example (m m' : List U8) : spongeBlocks 136 0x06#8 m ≠ spongeBlocks 136 0x1f#8 m' := fun h =>
  absurd (C83_blocks_injective 136 (by decide) _ _ (by decide) (by decide) (by decide) (by decide) m m' h).1 (by decide)

/-! ## Inner collisions -/

theorem calls_ok {rate : Nat} (hr : rate ≤ 200) (bs : List (List U8)) (hb : ∀ b ∈ bs, b.length = rate) {s : List U64}
    (hs : s.length = 25) : ∀ x ∈ callsFrom absorbing s bs, x.1.length = rate ∧ x.2.length = 25 := by
  induction bs generalizing s with
  | nil => intro x hx; exact absurd hx List.not_mem_nil
  | cons b bs ih =>
    have hl := hb b (List.mem_cons_self ..)
    obtain ⟨t, h1, h2, h3⟩ := Hacspec.Fips202.absorbBlock_ok hs (block := b) (by omega)
    intro x hx
    rw [callsFrom, absorbing, h1] at hx
    rcases List.mem_cons.mp hx with rfl | hx
    · exact ⟨hl, hs⟩
    · exact ih (fun b h => hb b (List.mem_cons_of_mem _ h)) h2 x hx

/-- **C83.**  Two different inputs (message and byte `p`) with the same state before squeezing: the two computations contain
two different states with the same inner part, or one of them returns to the zero state. -/
theorem C83_state_collision (rate : Nat) (hr : 0 < rate) (hr2 : rate ≤ 200) (p p' : U8) (hp : p ≠ 0#8) (hp7 : p < 128#8)
    (hp' : p' ≠ 0#8) (hp7' : p' < 128#8) (m m' : List U8) (hne : ¬(p = p' ∧ m = m')) (s : List U64)
    (h : chained absorbing (List.replicate 25 0) (spongeBlocks rate p m) = .ok s)
    (h' : chained absorbing (List.replicate 25 0) (spongeBlocks rate p' m') = .ok s) :
    InnerCollision rate (spongeCalls rate p m) (spongeCalls rate p' m') ∨
      (m.length / rate ≠ m'.length / rate ∧
        (Reaches absorbing (List.replicate 25 0) (spongeCalls rate p m) ∨
          Reaches absorbing (List.replicate 25 0) (spongeCalls rate p' m'))) := by
  rcases collide_or _ _ h h' with e | ⟨x, hx, y, hy, hxy, t, h1, h2⟩ | ⟨hl, hr⟩
  · exact absurd (C83_blocks_injective rate hr p p' hp hp7 hp' hp7' m m' e) hne
  · left
    obtain ⟨l1, l2⟩ := calls_ok hr2 _ (fun b => length_of_mem_spongeBlocks hr) (by simp) x hx
    obtain ⟨l1', l2'⟩ := calls_ok hr2 _ (fun b => length_of_mem_spongeBlocks hr) (by simp) y hy
    have he := (absorbing_eq l2 l2' (b := x.1) (b' := y.1) (by omega) (by omega)).mp (h1.trans h2.symm)
    refine ⟨x, hx, y, hy, fun e => hxy (Prod.ext ?_ e), ?_⟩
    · refine bits_eq (by omega) fun i hi => ?_
      have := he i (by omega)
      rwa [e, Bool.xor_right_inj] at this
    · rw [innerPart_eq l2 l2']
      intro i hi hri
      have := he i hi
      have z : ∀ b : List U8, b.length = rate → (bits b).getD i false = false := by
        intro b hb
        rw [List.getD_eq_getElem?_getD, List.getElem?_eq_none (by rw [Hacspec.Fips202.length_bits]; omega)]; rfl
      rwa [z _ l1, z _ l1', Bool.xor_false, Bool.xor_false] at this
  · right
    refine ⟨fun e => hl ?_, hr⟩
    rw [spongeBlocks, spongeBlocks, length_fullBlocks, length_fullBlocks, length_spongePad ‹_›, length_spongePad ‹_›, e]

theorem fullBlocks_append {α : Type} {n : Nat} (hn : 0 < n) (l k : List α) (hl : l.length % n = 0) :
    fullBlocks n (l ++ k) = fullBlocks n l ++ fullBlocks n k := by
  have hm : n * (l.length / n) = l.length := by
    have := Nat.div_add_mod l.length n
    omega
  have e : (l ++ k).length / n = l.length / n + k.length / n := by
    rw [List.length_append, ← hm, Nat.mul_add_div hn, Nat.mul_div_cancel_left _ hn]
  rw [fullBlocks, fullBlocks, fullBlocks, e, List.range_add, List.map_append, List.map_map]
  congr 1
  · apply List.map_congr_left
    intro i hi
    rw [List.mem_range] at hi
    have hle : n * i + n ≤ n * (l.length / n) := mul_window hi
    rw [List.drop_append_of_le_length (by omega), List.take_append_of_le_length (by simp; omega)]
  · apply List.map_congr_left
    intro i hi
    rw [Function.comp, Nat.mul_add, hm, List.drop_append, List.drop_of_length_le (by omega), List.nil_append,
      Nat.add_sub_cancel_left]

theorem spongeBlocks_append {rate : Nat} (hr : 0 < rate) (p : U8) (m x : List U8) (hl : m.length % rate = 0) :
    spongeBlocks rate p (m ++ x) = fullBlocks rate m ++ spongeBlocks rate p x := by
  have e : spongePad rate p (m ++ x) = m ++ spongePad rate p x := by
    rw [spongePad_eq, spongePad_eq, List.length_append, Nat.add_mod, hl, Nat.zero_add, Nat.mod_mod, List.append_assoc]
  rw [spongeBlocks, e, fullBlocks_append hr _ _ hl, spongeBlocks]

theorem fullBlocks_single {α : Type} {n : Nat} (hn : 0 < n) {b : List α} (hb : b.length = n) : fullBlocks n b = [b] := by
  rw [fullBlocks, hb, Nat.div_self hn]
  simp [List.take_of_length_le (Nat.le_of_eq hb)]

/-- Byte `j` of the state. -/
def stateByte (s : List U64) (j : Nat) : U8 := ((s.getD (j / 8) 0) >>> (8 * (j % 8))).setWidth 8

theorem getLsbD_stateByte (s : List U64) {i : Nat} (hi : i < 1600) :
    (stateByte s (i / 8)).getLsbD (i % 8) = (strOf s).getD i false := by
  rw [Hacspec.Fips202.getD_strOf _ hi, stateByte, BitVec.getLsbD_setWidth, BitVec.getLsbD_ushiftRight,
    show 8 * (i / 8 % 8) + i % 8 = i % 64 by omega, show i / 8 / 8 = i / 64 by omega,
    decide_eq_true (show i % 8 < 8 by omega), Bool.true_and]

/-- The block that moves one state to the image of another one. -/
def matching (rate : Nat) (s s' : List U64) (b : List U8) : List U8 :=
  (List.range rate).map fun j => b.getD j 0 ^^^ (stateByte s j ^^^ stateByte s' j)

theorem absorbing_matching {rate : Nat} (hr : rate ≤ 200) {s s' : List U64} (hs : s.length = 25) (hs' : s'.length = 25)
    (hi : innerPart rate s = innerPart rate s') {b : List U8} (hb : b.length = rate) :
    absorbing (matching rate s s' b) s' = absorbing b s := by
  have hl : (matching rate s s' b).length = rate := by simp [matching]
  rw [absorbing_eq hs' hs (by omega) (by omega)]
  intro i hi'
  by_cases h : i < 8 * rate
  · have e : (matching rate s s' b).getD (i / 8) 0 = b.getD (i / 8) 0 ^^^ (stateByte s (i / 8) ^^^ stateByte s' (i / 8)) := by
      rw [matching, List.getD_eq_getElem?_getD, List.getElem?_map, List.getElem?_range (by omega)]; rfl
    rw [Hacspec.Fips202.getD_bits, e, BitVec.getLsbD_xor, BitVec.getLsbD_xor, getLsbD_stateByte _ hi', getLsbD_stateByte _ hi',
      ← Hacspec.Fips202.getD_bits]
    generalize (strOf s).getD i false = x, (strOf s').getD i false = y, (bits b).getD i false = z
    revert x y z; decide
  · have z : ∀ b : List U8, b.length = rate → (bits b).getD i false = false := by
      intro b hb
      rw [List.getD_eq_getElem?_getD, List.getElem?_eq_none (by rw [Hacspec.Fips202.length_bits]; omega)]; rfl
    rw [z _ hl, z _ hb, (innerPart_eq hs hs').mp hi i hi' (by omega)]

theorem absorbing_inj_block {rate : Nat} (hr : rate ≤ 200) {s : List U64} (hs : s.length = 25) {b b' : List U8}
    (hb : b.length = rate) (hb' : b'.length = rate) (h : absorbing b s = absorbing b' s) : b = b' := by
  rw [absorbing_eq hs hs (by omega) (by omega)] at h
  refine bits_eq (by omega) fun i hi => ?_
  have := h i (by omega)
  rwa [Bool.xor_right_inj] at this

theorem length_of_mem_fullBlocks {α : Type} {n : Nat} {l b : List α} (h : b ∈ fullBlocks n l) : b.length = n := by
  rw [fullBlocks, List.mem_map] at h
  obtain ⟨i, hi, rfl⟩ := h
  rw [List.mem_range] at hi
  have hle : n * i + n ≤ n * (l.length / n) := mul_window hi
  have := Nat.mul_div_le l.length n
  rw [List.length_take, List.length_drop]; omega

/-- **C83.**  Conversely an inner collision gives collisions of `keccak`: if two messages of full blocks lead to states with
the same inner part, then every further block of one is matched by exactly one block of the other, after which the
computations agree for every continuation, byte `p` and output length. -/
theorem C83_inner_collision_extends (rate : Nat) (hr : 0 < rate) (hr2 : rate ≤ 200) (m m' : List U8)
    (hl : m.length % rate = 0) (hl' : m'.length % rate = 0) (s s' : List U64)
    (h : chained absorbing (List.replicate 25 0) (fullBlocks rate m) = .ok s)
    (h' : chained absorbing (List.replicate 25 0) (fullBlocks rate m') = .ok s')
    (hi : innerPart rate s = innerPart rate s') (b : List U8) (hb : b.length = rate) :
    ∃ b', b'.length = rate ∧ (∀ x, x.length = rate → (absorbing x s' = absorbing b s ↔ x = b')) ∧
      ∀ z p n, m.length + rate + z.length + rate < 2 ^ 64 → m'.length + rate + z.length + rate < 2 ^ 64 →
        keccak rate (m ++ (b ++ z)) p n = keccak rate (m' ++ (b' ++ z)) p n := by
  obtain ⟨u, e1, e2, -⟩ := chained_ok hr2 (fullBlocks rate m) (fun b => length_of_mem_fullBlocks) (s := List.replicate 25 0)
    (by simp)
  obtain ⟨u', e1', e2', -⟩ := chained_ok hr2 (fullBlocks rate m') (fun b => length_of_mem_fullBlocks)
    (s := List.replicate 25 0) (by simp)
  obtain rfl : s = u := by rw [h] at e1; injection e1
  obtain rfl : s' = u' := by rw [h'] at e1'; injection e1'
  have hml : (matching rate s s' b).length = rate := by simp [matching]
  have hm := absorbing_matching hr2 e2 e2' hi hb
  refine ⟨matching rate s s' b, hml, fun x hx => ⟨fun e => ?_, fun e => by rw [e, hm]⟩, fun z p n h1 h2 => ?_⟩
  · exact absorbing_inj_block hr2 e2' hx hml (e.trans hm.symm)
  · obtain ⟨t, c1, -, c2⟩ := C83_chain rate hr hr2 (m ++ (b ++ z)) (by simp only [List.length_append]; omega) p n
    obtain ⟨t', c1', -, c2'⟩ := C83_chain rate hr hr2 (m' ++ (matching rate s s' b ++ z))
      (by simp only [List.length_append]; omega) p n
    rw [spongeBlocks_append hr _ _ _ hl, spongeBlocks_append hr _ _ _ (by rw [hb, Nat.mod_self]), fullBlocks_single hr hb,
      chained_append, h, bind_ok, List.singleton_append, chained] at c1
    rw [spongeBlocks_append hr _ _ _ hl', spongeBlocks_append hr _ _ _ (by rw [hml, Nat.mod_self]), fullBlocks_single hr hml,
      chained_append, h', bind_ok, List.singleton_append, chained, hm, c1] at c1'
    injection c1' with c
    rw [c2, c2', c]

/-- **C83.**  Absorbing fixed blocks permutes the states: a state and the blocks absorbed since determine the state before. -/
theorem C83_reversible (rate : Nat) (hr : rate ≤ 200) (bs : List (List U8)) (hb : ∀ b ∈ bs, b.length = rate) :
    Permutes 25 fun s => chained absorbing s bs := by
  have one : ∀ b : List U8, b.length = rate → Permutes 25 (absorbing b) := by
    intro b hb
    constructor
    · intro s hs
      obtain ⟨t, h1, h2, -⟩ := Hacspec.Fips202.absorbBlock_ok hs (block := b) (by omega)
      exact ⟨t, h1, h2⟩
    · intro t ht
      obtain ⟨u, h1, h2, -⟩ := C48_permutation.2 t ht
      obtain ⟨s, h3, -, h4⟩ := absorbing_xor h1 (b := b) (by omega)
      obtain ⟨v, h5, h6, h7⟩ := absorbing_xor h3 (b := b) (by omega)
      have e : v = u := by
        refine strOf_inj h5 h1 (ChaCha.ext_getD false (by rw [Hacspec.Fips202.length_strOf, Hacspec.Fips202.length_strOf])
          fun i hi => ?_)
        rw [Hacspec.Fips202.length_strOf] at hi
        rw [h7 i hi, h4 i hi, Bool.xor_assoc, Bool.xor_self, Bool.xor_false]
      have hsb : absorbing b s = .ok t := by rw [h6, e, h2]
      refine ⟨s, h3, hsb, fun s' hs' h => ?_⟩
      have := (absorbing_eq hs' h3 (b := b) (b' := b) (by omega) (by omega)).mp (h.trans hsb.symm)
      refine strOf_inj hs' h3 (ChaCha.ext_getD false (by rw [Hacspec.Fips202.length_strOf, Hacspec.Fips202.length_strOf])
        fun i hi => ?_)
      rw [Hacspec.Fips202.length_strOf] at hi
      exact Bool.xor_left_inj.mp (this i hi)
  induction bs with
  | nil => exact ⟨fun s hs => ⟨s, rfl, hs⟩, fun t ht => ⟨t, ht, rfl, fun s' _ h => by injection h⟩⟩
  | cons b bs ih =>
    exact (one b (hb b (List.mem_cons_self ..))).bind (ih fun b h => hb b (List.mem_cons_of_mem _ h))

/-- A case with two different messages: at the rate 200 there is no inner part, and every message of full blocks collides with
the empty one after one more block. -/
example (b : List U8) (hb : b.length = 200) : ∃ b' : List U8, b'.length = 200 ∧ ∀ p n,
    keccak 200 b p n = keccak 200 (List.replicate 200 7 ++ b') p n := by
  obtain ⟨s, h, h2, -⟩ := chained_ok (rate := 200) (by decide) (fullBlocks 200 (List.replicate 200 7))
    (fun b => length_of_mem_fullBlocks) (s := List.replicate 25 0) (by simp)
  have e : ∀ s : List U64, s.length = 25 → innerPart 200 s = [] := by
    intro s hs
    refine List.drop_of_length_le ?_
    rw [← strOf_laneBits hs, Hacspec.Fips202.length_strOf]
  obtain ⟨b', h1, -, h3⟩ := C83_inner_collision_extends 200 (by decide) (by decide) [] (List.replicate 200 7) rfl
    (by rw [List.length_replicate]) (List.replicate 25 0) s rfl h (by rw [e _ (by simp), e _ h2]) b hb
  refine ⟨b', h1, fun p n => ?_⟩
  have := h3 [] p n (by decide) (by rw [List.length_replicate]; decide)
  rwa [List.append_nil, List.append_nil, List.nil_append] at this

end Hacspec.Props
