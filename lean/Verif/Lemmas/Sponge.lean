import Verif.Lemmas.Keccak
import Verif.Lemmas.Chunk
import Mathlib.Algebra.Order.Ring.Nat

/-! # SHA-3 and SHAKE: the model refines the sponge of FIPS 202 -/

namespace Hacspec.Fips202

open SecretInt Hacspec.Seq
open Hacspec.ChaCha (getD_set ext_getD)
open Spec.Fips202 (StateArray bits keccakf)

/-! ## Strings of the state -/

/-- The string of 25 lanes. -/
def strOf (s : List U64) : List Bool := (List.range 1600).map fun i => (s.getD (i / 64) 0).getLsbD (i % 64)

theorem length_strOf (s : List U64) : (strOf s).length = 1600 := by rw [strOf, List.length_map, List.length_range]

theorem getD_strOf (s : List U64) {i : Nat} (h : i < 1600) :
    (strOf s).getD i false = (s.getD (i / 64) 0).getLsbD (i % 64) := map_range_getD _ _ h

theorem toArray_strOf (s : List U64) : Spec.Fips202.toArray (strOf s) = arr s := by
  funext x y z
  rw [Spec.Fips202.toArray, getD_strOf _ (by omega), arr, show (64 * (5 * y.val + x.val) + z.val) / 64 = 5 * y.val + x.val by omega,
    show (64 * (5 * y.val + x.val) + z.val) % 64 = z.val by omega]

theorem flatMap_finRange_getD {α : Type} {n k : Nat} (f : Fin n → List α) (hf : ∀ i, (f i).length = k) (d : α) {i : Nat}
    (hi : i < n * k) :
    ((List.finRange n).flatMap f).getD i d =
      (f ⟨i / k, Nat.div_lt_of_lt_mul (by rwa [Nat.mul_comm])⟩).getD (i % k) d := by
  have hk : 0 < k := by
    rcases Nat.eq_zero_or_pos k with rfl | h
    · simp at hi
    · exact h
  induction n generalizing i with
  | zero => omega
  | succ n ih =>
    rw [List.finRange_succ, List.flatMap_cons, List.flatMap_map]
    by_cases h : i < k
    · rw [getD_append_lt (by rwa [hf])]
      have : i / k = 0 := Nat.div_eq_of_lt h
      congr 1
      · congr 1; exact Fin.ext this.symm
      · exact (Nat.mod_eq_of_lt h).symm
    · have e1 : i / k = (i - k) / k + 1 := by
        rw [Nat.div_eq_sub_div hk (by omega)]
      have e2 : i % k = (i - k) % k := Nat.mod_eq_sub_mod (by omega)
      have hi' : i - k < n * k := by rw [Nat.succ_mul] at hi; omega
      have := ih (fun j => f j.succ) (fun j => hf _) hi'
      rw [List.getD_eq_getElem?_getD, List.getElem?_append_right (by rw [hf]; omega), hf, ← List.getD_eq_getElem?_getD, this,
        e2]
      congr 2
      exact Fin.ext (by simp [e1])

theorem length_toString (A : StateArray) : (Spec.Fips202.toString A).length = 1600 := by
  simp [Spec.Fips202.toString]

theorem toString_arr (s : List U64) : Spec.Fips202.toString (arr s) = strOf s := by
  refine ext_getD false (by rw [length_toString, length_strOf]) fun i hi => ?_
  rw [length_toString] at hi
  rw [getD_strOf _ hi, Spec.Fips202.toString, flatMap_finRange_getD (k := 320) _ (by simp) _ (by omega),
    flatMap_finRange_getD (k := 64) _ (by simp) _ (by omega)]
  have : i % 320 % 64 < (List.finRange 64).length := by simp; omega
  rw [List.getD_eq_getElem?_getD, List.getElem?_map, List.getElem?_eq_getElem this]
  simp only [List.getElem_finRange, Option.map_some, Option.getD_some, arr, Fin.val_cast]
  rw [show 5 * (i / 320) + i % 320 / 64 = i / 64 by omega, show i % 320 % 64 = i % 64 by omega]

theorem length_keccakf (S : List Bool) : (keccakf S).length = 1600 := length_toString _

theorem keccakf_ok {s : List U64} (hs : s.length = 25) :
    ∃ t, keccakf1600 s = .ok t ∧ t.length = 25 ∧ strOf t = keccakf (strOf s) := by
  obtain ⟨t, h1, h2, h3⟩ := keccakf_refines s hs
  exact ⟨t, h1, h2, by rw [keccakf, toArray_strOf, ← toString_arr, h3, roundsA]⟩

/-! ## Bits of bytes -/

theorem bits_nil : bits [] = [] := rfl
theorem bits_cons (x : U8) (l : List U8) : bits (x :: l) = (List.range 8).map x.getLsbD ++ bits l := by
  rw [bits, List.flatMap_cons]; rfl
theorem bits_append (a b : List U8) : bits (a ++ b) = bits a ++ bits b := by rw [bits, List.flatMap_append]; rfl

theorem length_bits (l : List U8) : (bits l).length = 8 * l.length := by
  induction l with
  | nil => rfl
  | cons x l ih => rw [bits_cons, List.length_append, ih]; simp; omega

theorem getD_bits (l : List U8) (i : Nat) : (bits l).getD i false = (l.getD (i / 8) 0).getLsbD (i % 8) := by
  induction l generalizing i with
  | nil => simp [bits_nil]
  | cons x l ih =>
    rw [bits_cons]
    by_cases h : i < 8
    · rw [getD_append_lt (by simpa using h), map_range_getD _ _ h, Nat.div_eq_of_lt h, Nat.mod_eq_of_lt h]; rfl
    · rw [List.getD_eq_getElem?_getD, List.getElem?_append_right (by simpa using h), ← List.getD_eq_getElem?_getD]
      simp only [List.length_map, List.length_range]
      rw [ih, show i / 8 = (i - 8) / 8 + 1 by omega, show (i - 8) % 8 = i % 8 by omega]; rfl

theorem bits_drop (l : List U8) (n : Nat) : bits (l.drop n) = (bits l).drop (8 * n) := by
  induction n generalizing l with
  | zero => rfl
  | succ n ih =>
    cases l with
    | nil => simp [bits_nil]
    | cons x l =>
      rw [List.drop_succ_cons, ih, bits_cons, List.drop_append,
        List.drop_of_length_le (l := (List.range 8).map x.getLsbD) (by simp), List.nil_append]
      congr 1

theorem bits_take (l : List U8) (n : Nat) : bits (l.take n) = (bits l).take (8 * n) := by
  induction n generalizing l with
  | zero => rfl
  | succ n ih =>
    cases l with
    | nil => simp [bits_nil]
    | cons x l =>
      rw [List.take_succ_cons, bits_cons, ih, bits_cons, List.take_append,
        List.take_of_length_le (l := (List.range 8).map x.getLsbD) (by simp)]
      congr 2

theorem bits_inj {a b : List U8} (h : bits a = bits b) : a = b := by
  have hl : a.length = b.length := by
    have := congrArg List.length h
    rw [length_bits, length_bits] at this; omega
  refine ext_getD 0 hl fun j hj => BitVec.eq_of_getLsbD_eq fun i hi => ?_
  have := congrArg (fun l => l.getD (8 * j + i) false) h
  simp only [getD_bits] at this
  rwa [show (8 * j + i) / 8 = j by omega, show (8 * j + i) % 8 = i by omega] at this

/-! ## Absorbing -/

/-- One block of `r` bits. -/
def stepS (r : Nat) (S P : List Bool) : List Bool :=
  keccakf (List.zipWith (· ^^ ·) S (P ++ List.replicate (1600 - r) false))

theorem absorbByte_ok {s : List U64} (hs : s.length = 25) {block : List U8} {i : Nat} (hi : i < block.length)
    (hb : block.length ≤ 200) :
    absorbByte block i s =
      .ok (s.set (i / 8) (s.getD (i / 8) 0 ^^^ ((block.getD i 0).setWidth 64 <<< (8 * (i % 8))))) := by
  rw [absorbByte, idx_getD 0 hi, bind_ok, shl, if_pos (by omega), bind_ok, xorAt_ok _ (by omega)]; rfl

theorem absorbBytes_ok {s : List U64} (hs : s.length = 25) {block : List U8} (hb : block.length ≤ 200) :
    ∃ t, loop block.length (absorbByte block) s = .ok t ∧ t.length = 25 ∧
      strOf t = List.zipWith (· ^^ ·) (strOf s) (bits block ++ List.replicate (1600 - 8 * block.length) false) := by
  obtain ⟨t, h1, h2, h3⟩ := loop_inv (n := block.length) (body := absorbByte block) (s := s)
    (fun n t => t.length = 25 ∧ ∀ i, i < 1600 → (t.getD (i / 64) 0).getLsbD (i % 64) =
      ((s.getD (i / 64) 0).getLsbD (i % 64) ^^ (if i / 8 < n then (block.getD (i / 8) 0).getLsbD (i % 8) else false)))
    ⟨hs, fun i _ => by simp⟩
    (fun n hn t ⟨h2, h3⟩ => by
      refine ⟨_, absorbByte_ok h2 hn hb, by rw [List.length_set, h2], fun i hi => ?_⟩
      rw [getD_set]
      by_cases h : n / 8 = i / 64
      · rw [if_pos ⟨h, by omega⟩, BitVec.getLsbD_xor, h, h3 i hi, BitVec.getLsbD_shiftLeft, BitVec.getLsbD_setWidth]
        by_cases h' : i / 8 = n
        · subst h'
          rw [if_neg (by omega), if_pos (by omega), show i % 64 - 8 * (i / 8 % 8) = i % 8 by omega]
          simp [show i % 64 < 64 by omega, show ¬ i % 64 < 8 * (i / 8 % 8) by omega, show i % 8 < 64 by omega]
        · have e : (!decide (i % 64 < 8 * (n % 8)) && (block.getD n 0).getLsbD (i % 64 - 8 * (n % 8))) = false := by
            by_cases hh : i % 64 < 8 * (n % 8)
            · simp [hh]
            · rw [BitVec.getLsbD_of_ge _ _ (by omega), Bool.and_false]
          have e' : (decide (i % 64 < 64) && !decide (i % 64 < 8 * (n % 8)) &&
              (decide (i % 64 - 8 * (n % 8) < 64) && (block.getD n 0).getLsbD (i % 64 - 8 * (n % 8)))) = false := by
            rw [decide_eq_true (show i % 64 < 64 by omega), decide_eq_true (show i % 64 - 8 * (n % 8) < 64 by omega),
              Bool.true_and, Bool.true_and, e]
          rw [e', Bool.xor_false]
          by_cases h'' : i / 8 < n
          · rw [if_pos h'', if_pos (by omega)]
          · rw [if_neg h'', if_neg (by omega)]
      · rw [if_neg (fun c => h c.1), h3 i hi]
        by_cases h'' : i / 8 < n
        · rw [if_pos h'', if_pos (by omega)]
        · rw [if_neg h'', if_neg (by omega)])
  refine ⟨t, h1, h2, ?_⟩
  have hl : (bits block ++ List.replicate (1600 - 8 * block.length) false).length = 1600 := by
    rw [List.length_append, length_bits, List.length_replicate]; omega
  refine ext_getD false (by rw [List.length_zipWith, length_strOf, length_strOf, hl]; rfl) fun i hi => ?_
  rw [length_strOf] at hi
  have hz : ∀ a b : List Bool, i < a.length → i < b.length →
      (List.zipWith (· ^^ ·) a b).getD i false = (a.getD i false ^^ b.getD i false) := by
    intro a b ha hb
    simp only [List.getD_eq_getElem?_getD, List.getElem?_zipWith, List.getElem?_eq_getElem ha,
      List.getElem?_eq_getElem hb]
    rfl
  rw [hz _ _ (by rwa [length_strOf]) (by rwa [hl]), getD_strOf _ hi, getD_strOf _ hi, h3 i hi]
  congr 1
  by_cases h : i / 8 < block.length
  · rw [if_pos h, getD_append_lt (by rw [length_bits]; omega), getD_bits]
  · rw [if_neg h, List.getD_eq_getElem?_getD, List.getElem?_append_right (by rw [length_bits]; omega),
      List.getElem?_replicate]
    split <;> rfl

theorem absorbBlock_ok {s : List U64} (hs : s.length = 25) {block : List U8} (hb : block.length ≤ 200) :
    ∃ t, absorbBlock s block = .ok t ∧ t.length = 25 ∧ strOf t = stepS (8 * block.length) (strOf s) (bits block) := by
  obtain ⟨t, h1, h2, h3⟩ := absorbBytes_ok hs hb
  obtain ⟨u, h4, h5, h6⟩ := keccakf_ok h2
  exact ⟨u, by rw [absorbBlock, h1, bind_ok, h4], h5, by rw [h6, h3, stepS]⟩

/-- The state after `n` whole blocks of the data. -/
def chainS (rate : Nat) (d : List U8) (n : Nat) : List Bool :=
  (List.range n).foldl (fun S i => stepS (8 * rate) S (bits ((d.drop (rate * i)).take rate))) (List.replicate 1600 false)

theorem strOf_new : strOf (new 25) = List.replicate 1600 false := by
  refine ext_getD false (by rw [length_strOf, List.length_replicate]) fun i hi => ?_
  rw [length_strOf] at hi
  rw [getD_strOf _ hi]
  have : (new 25 : List U64).getD (i / 64) 0 = 0 := by
    rw [new, List.getD_eq_getElem?_getD, List.getElem?_replicate]; split <;> rfl
  rw [this, List.getD_eq_getElem?_getD, List.getElem?_replicate, if_pos hi]
  exact BitVec.getLsbD_zero

theorem absorb_full {rate : Nat} (hr : 0 < rate) (hr2 : rate ≤ 200) (d : List U8) :
    ∃ st, loop (d.length / rate) (absorbStep rate d) ⟨new rate, 0, new 25⟩ = .ok st ∧ st.buf = new rate ∧
      st.lastBlockLen = 0 ∧ st.s.length = 25 ∧ strOf st.s = chainS rate d (d.length / rate) := by
  refine loop_inv (fun i (st : Sponge) => st.buf = new rate ∧ st.lastBlockLen = 0 ∧ st.s.length = 25 ∧
    strOf st.s = chainS rate d i) ⟨rfl, rfl, by simp [length_new], strOf_new⟩ ?_
  intro i hi st ⟨h1, h2, h3, h4⟩
  have hle : rate * i + rate ≤ d.length := by
    have := Nat.mul_le_mul_left rate (show i + 1 ≤ d.length / rate by omega)
    have h' := Nat.mul_div_le d.length rate
    rw [Nat.mul_succ] at this; omega
  have hb : ((d.drop (rate * i)).take rate).length = rate := by simp; omega
  obtain ⟨t, h5, h6, h7⟩ := absorbBlock_ok h3 (block := (d.drop (rate * i)).take rate) (by rw [hb]; exact hr2)
  refine ⟨{ st with s := t }, ?_, h1, h2, h6, ?_⟩
  · rw [absorbStep, getChunk_ok (by omega), bind_ok, absorbBranch]
    simp only
    rw [if_pos (by omega), h5, bind_ok]
  · simp only
    rw [h7, hb, h4, chainS, chainS, List.range_succ, List.foldl_append]; rfl

theorem absorb_ok {rate : Nat} (hr : 0 < rate) (hr2 : rate ≤ 200) (d : List U8) :
    ∃ st, loop ((d.length + rate - 1) / rate) (absorbStep rate d) ⟨new rate, 0, new 25⟩ = .ok st ∧
      st.buf = d.drop (rate * (d.length / rate)) ++ List.replicate (rate - d.length % rate) 0 ∧
      st.lastBlockLen = d.length % rate ∧ st.s.length = 25 ∧ strOf st.s = chainS rate d (d.length / rate) := by
  obtain ⟨st, h1, h2, h3, h4, h5⟩ := absorb_full hr hr2 d
  have hdm := Nat.div_add_mod d.length rate
  have hlt := Nat.mod_lt d.length hr
  by_cases h : d.length % rate = 0
  · have e : (d.length + rate - 1) / rate = d.length / rate := by
      rw [show d.length + rate - 1 = rate * (d.length / rate) + (rate - 1) by omega, Nat.mul_add_div hr,
        Nat.div_eq_of_lt (show rate - 1 < rate by omega), Nat.add_zero]
    refine ⟨st, by rw [e, h1], ?_, by rw [h3, h], h4, h5⟩
    rw [h2, h, List.drop_of_length_le (by omega), List.nil_append]; rfl
  · have e : (d.length + rate - 1) / rate = d.length / rate + 1 := by
      rw [show d.length + rate - 1 = rate * (d.length / rate) + (rate + (d.length % rate - 1)) by omega,
        Nat.mul_add_div hr, Nat.add_div_left _ hr, Nat.div_eq_of_lt (show d.length % rate - 1 < rate by omega)]
    have hb : ((d.drop (rate * (d.length / rate))).take rate) = d.drop (rate * (d.length / rate)) :=
      List.take_of_length_le (by simp; omega)
    have hbl : (d.drop (rate * (d.length / rate))).length = d.length % rate := by simp; omega
    refine ⟨⟨d.drop (rate * (d.length / rate)) ++ List.replicate (rate - d.length % rate) 0, d.length % rate, st.s⟩, ?_, rfl,
      rfl, h4, h5⟩
    rw [e, loop_succ, h1, bind_ok, absorbStep, getChunk_ok (by omega), bind_ok, absorbBranch]
    simp only
    rw [if_neg (by omega), hb, h2, updateStart_new (by omega), bind_ok, hbl,
      show min rate (d.length - rate * (d.length / rate)) = d.length % rate by omega]
    rfl

/-! ## Padding -/

/-- The bytes appended to the data, where `q` bytes are missing to a whole block. -/
def padBytes (p : U8) (q : Nat) : List U8 :=
  if q = 1 then [p ||| 128#8] else p :: (List.replicate (q - 2) 0#8 ++ [128#8])

theorem length_padBytes (p : U8) {q : Nat} (hq : 0 < q) : (padBytes p q).length = q := by
  rw [padBytes]; split
  · simp; omega
  · simp; omega

theorem padBuf_ok {rate : Nat} (p : U8) (a : List U8) (ha : a.length < rate) :
    padBuf rate p a.length (a ++ List.replicate (rate - a.length) 0) = .ok (a ++ padBytes p (rate - a.length)) := by
  obtain ⟨q, rfl⟩ : ∃ q, rate = a.length + (q + 1) := ⟨rate - a.length - 1, by omega⟩
  rw [padBuf, setIdx_ok (by simp), bind_ok, Nat.add_sub_cancel_left, List.replicate_succ, set_append_cons]
  have hl : (a ++ p :: List.replicate q (0 : U8)).length = a.length + (q + 1) := by simp
  rw [idx_getD 0 (by omega), bind_ok, setIdx_ok (by omega), padBytes]
  congr 1
  rw [List.set_append_right _ _ (by omega), List.getD_eq_getElem?_getD, List.getElem?_append_right (by omega)]
  simp only [show a.length + (q + 1) - 1 - a.length = q by omega]
  congr 1
  match q with
  | 0 => rfl
  | q + 1 =>
    rw [if_neg (by omega), List.getElem?_cons_succ, List.getElem?_replicate, if_pos (by omega), List.set_cons_succ,
      List.replicate_succ', show q + 1 + 1 - 2 = q by omega]
    congr 1
    rw [List.set_append_right _ _ (by simp)]
    simp

theorem bits_replicate_zero (n : Nat) : bits (List.replicate n 0#8) = List.replicate (8 * n) false := by
  induction n with
  | zero => rfl
  | succ n ih =>
    rw [List.replicate_succ, bits_cons, ih, show 8 * (n + 1) = 8 + 8 * n by omega, ← List.replicate_append_replicate]
    rfl

/-- `p` holds the suffix and the first bit of the padding. -/
structure Suffix (p : U8) (sfx : List Bool) : Prop where
  len : sfx.length ≤ 5
  first : bits [p] = sfx ++ true :: List.replicate (7 - sfx.length) false
  only : bits [p ||| 128#8] = sfx ++ true :: (List.replicate (6 - sfx.length) false ++ [true])

theorem suffix_sha3 : Suffix 0x06#8 [false, true] := ⟨by decide, by decide, by decide⟩
theorem suffix_shake : Suffix 0x1f#8 [true, true, true, true] := ⟨by decide, by decide, by decide⟩

theorem pad_bits {p : U8} {sfx : List Bool} (h : Suffix p sfx) {rate len : Nat} (hr : 0 < rate) :
    sfx ++ Spec.Fips202.pad101 (8 * rate) (8 * len + sfx.length) = bits (padBytes p (rate - len % rate)) := by
  have hl := h.len
  have hlt := Nat.mod_lt len hr
  have hm : (8 * len + sfx.length + 2) % (8 * rate) = 8 * (len % rate) + sfx.length + 2 := by
    conv_lhs => rw [← Nat.div_add_mod len rate]
    rw [show 8 * (rate * (len / rate) + len % rate) + sfx.length + 2 =
      8 * (len % rate) + sfx.length + 2 + 8 * rate * (len / rate) by rw [Nat.mul_add, Nat.mul_assoc]; omega,
      Nat.add_mul_mod_self_left, Nat.mod_eq_of_lt (by omega)]
  rw [Spec.Fips202.pad101, hm, Nat.mod_eq_of_lt (by omega), padBytes]
  by_cases hq : rate - len % rate = 1
  · rw [if_pos hq, h.only, show 8 * rate - (8 * (len % rate) + sfx.length + 2) = 6 - sfx.length by omega]
  · rw [if_neg hq, show (p :: (List.replicate (rate - len % rate - 2) 0#8 ++ [128#8])) =
        [p] ++ (List.replicate (rate - len % rate - 2) 0#8 ++ [128#8]) from rfl, bits_append, bits_append, h.first,
      bits_replicate_zero, show bits [128#8] = List.replicate 7 false ++ [true] by decide,
      show 8 * rate - (8 * (len % rate) + sfx.length + 2) =
        (7 - sfx.length) + (8 * (rate - len % rate - 2) + 7) by omega,
      ← List.replicate_append_replicate, ← List.replicate_append_replicate]
    simp only [List.append_assoc, List.cons_append]

/-- The state after absorbing is the one of the specification. -/
theorem absorb_spec {p : U8} {sfx : List Bool} (h : Suffix p sfx) {rate : Nat} (hr : 0 < rate) (d : List U8) :
    Spec.Fips202.absorb (8 * rate) (bits d ++ sfx) =
      stepS (8 * rate) (chainS rate d (d.length / rate))
        (bits (d.drop (rate * (d.length / rate)) ++ padBytes p (rate - d.length % rate))) := by
  have hdm := Nat.div_add_mod d.length rate
  have hlt := Nat.mod_lt d.length hr
  have e : bits d ++ sfx ++ Spec.Fips202.pad101 (8 * rate) (bits d ++ sfx).length =
      bits (d ++ padBytes p (rate - d.length % rate)) := by
    rw [List.length_append, length_bits, List.append_assoc, pad_bits h hr, bits_append]
  have hlen : (d ++ padBytes p (rate - d.length % rate)).length = rate * (d.length / rate + 1) := by
    rw [List.length_append, length_padBytes _ (by omega), Nat.mul_succ]; omega
  rw [Spec.Fips202.absorb, e, Spec.Fips202.blocks, length_bits, hlen, ← Nat.mul_assoc, Nat.mul_div_cancel_left _ (by omega),
    List.range_succ, List.map_append, List.foldl_append]
  simp only [List.map_cons, List.map_nil, List.foldl_cons, List.foldl_nil]
  have hb : ∀ i, ((bits (d ++ padBytes p (rate - d.length % rate))).drop (8 * rate * i)).take (8 * rate) =
      bits (((d ++ padBytes p (rate - d.length % rate)).drop (rate * i)).take rate) := by
    intro i; rw [bits_take, bits_drop, Nat.mul_assoc]
  simp only [hb]
  have hlast : ((d ++ padBytes p (rate - d.length % rate)).drop (rate * (d.length / rate))).take rate =
      d.drop (rate * (d.length / rate)) ++ padBytes p (rate - d.length % rate) := by
    rw [List.take_of_length_le (by rw [List.length_drop, hlen, Nat.mul_succ]; omega), List.drop_append_of_le_length (by omega)]
  rw [hlast]
  show stepS (8 * rate) _ _ = stepS (8 * rate) _ _
  congr 1
  rw [chainS, List.foldl_map]
  apply foldl_range_congr
  intro S i hi
  show stepS (8 * rate) _ _ = stepS (8 * rate) _ _
  have hle : rate * i + rate ≤ rate * (d.length / rate) := mul_window hi
  rw [List.drop_append_of_le_length (by omega), List.take_append_of_le_length (by simp; omega)]

/-! ## Squeezing -/

/-- Iterating the permutation. -/
def iter (S : List Bool) : Nat → List Bool
  | 0 => S
  | n + 1 => keccakf (iter S n)

theorem iter_succ' (S : List Bool) (n : Nat) : iter S (n + 1) = iter (keccakf S) n := by
  induction n with
  | zero => rfl
  | succ n ih => rw [iter, ih]; rfl

theorem length_iter {S : List Bool} (h : S.length = 1600) (n : Nat) : (iter S n).length = 1600 := by
  cases n with
  | zero => exact h
  | succ n => exact length_keccakf _

theorem length_output {r : Nat} (hr : r ≤ 1600) (n : Nat) {S : List Bool} (h : S.length = 1600) :
    (Spec.Fips202.output r n S).length = n * r := by
  induction n generalizing S with
  | zero => simp [Spec.Fips202.output]
  | succ n ih =>
    rw [Spec.Fips202.output, List.length_append, ih (length_keccakf S), List.length_take, h, Nat.min_eq_left hr, Nat.succ_mul,
      Nat.add_comm]

theorem getD_output {r : Nat} (hr0 : 0 < r) (hr : r ≤ 1600) {n : Nat} {S : List Bool} (h : S.length = 1600) {i : Nat}
    (hi : i < n * r) : (Spec.Fips202.output r n S).getD i false = (iter S (i / r)).getD (i % r) false := by
  induction n generalizing S i with
  | zero => omega
  | succ n ih =>
    have hl : (S.take r).length = r := by rw [List.length_take, h, Nat.min_eq_left hr]
    rw [Spec.Fips202.output]
    by_cases hlt : i < r
    · rw [getD_append_lt (by rwa [hl]), Nat.div_eq_of_lt hlt, Nat.mod_eq_of_lt hlt, iter, List.getD_eq_getElem?_getD,
        List.getElem?_take, if_pos hlt, ← List.getD_eq_getElem?_getD]
    · rw [Nat.succ_mul] at hi
      rw [List.getD_eq_getElem?_getD, List.getElem?_append_right (by omega), hl, ← List.getD_eq_getElem?_getD,
        ih (length_keccakf S) (by omega), ← iter_succ', Nat.mod_eq_sub_mod (Nat.le_of_not_lt hlt),
        Nat.div_eq_sub_div hr0 (Nat.le_of_not_lt hlt)]

theorem squeeze_ok {rate : Nat} (hr : 0 < rate) (hr2 : rate ≤ 200) {s : List U64} (hs : s.length = 25) (n : Nat) :
    ∃ out, squeeze s n rate = .ok out ∧ out.length = n ∧ ∀ i, i < n → ∀ b, b < 8 →
      (out.getD i 0).getLsbD b = (iter (strOf s) (i / rate)).getD (8 * (i % rate) + b) false := by
  obtain ⟨st, h1, h2, h3, h4, h5⟩ := loop_inv (n := n) (body := squeezeStep rate) (s := (s, (new n : List U8)))
    (fun k st => st.1.length = 25 ∧ strOf st.1 = iter (strOf s) (k / rate) ∧ st.2.length = n ∧ ∀ i, i < k → ∀ b, b < 8 →
      (st.2.getD i 0).getLsbD b = (iter (strOf s) (i / rate)).getD (8 * (i % rate) + b) false)
    ⟨hs, by rw [Nat.zero_div, iter], length_new n, fun i hi => absurd hi (Nat.not_lt_zero i)⟩
    (fun k hk st ⟨h2, h3, h4, h5⟩ => by
      have hlt := Nat.mod_lt k hr
      have hbits : ∀ i, i < k + 1 → ∀ b, b < 8 →
          ((st.2.set k (castU 8 (((st.1.getD (k % rate / 8) 0) >>> (8 * (k % rate % 8))) &&& classify 0xff#64))).getD i 0).getLsbD b =
            (iter (strOf s) (i / rate)).getD (8 * (i % rate) + b) false := by
        intro i hi b hb
        rw [getD_set]
        by_cases h : k = i
        · subst h
          rw [if_pos ⟨rfl, by omega⟩, ← h3, getD_strOf _ (by omega), castU, BitVec.getLsbD_setWidth, BitVec.getLsbD_and,
            BitVec.getLsbD_ushiftRight]
          have hff : (classify 0xff#64 : U64).getLsbD b = true := by
            revert b; decide
          rw [hff, decide_eq_true hb, Bool.true_and, Bool.and_true, show (8 * (k % rate) + b) / 64 = k % rate / 8 by omega,
            show (8 * (k % rate) + b) % 64 = 8 * (k % rate % 8) + b by omega]
        · rw [if_neg (fun c => h c.1), h5 i (by omega) b hb]
      have hstep : squeezeStep rate k st = squeezeNext k rate st.1 >>= fun s' =>
          .ok (s', st.2.set k (castU 8 (((st.1.getD (k % rate / 8) 0) >>> (8 * (k % rate % 8))) &&& classify 0xff#64))) := by
        rw [squeezeStep, idx_getD 0 (by omega), bind_ok, shrU, if_pos (by omega), bind_ok, setIdx_ok (by omega), bind_ok]
      rw [hstep, squeezeNext]
      by_cases h : (k + 1) % rate = 0
      · obtain ⟨t, e1, e2, e3⟩ := keccakf_ok h2
        refine ⟨(t, st.2.set k (castU 8 (((st.1.getD (k % rate / 8) 0) >>> (8 * (k % rate % 8))) &&& classify 0xff#64))),
          by rw [if_pos h, e1, bind_ok], e2, ?_, by rw [List.length_set, h4], hbits⟩
        simp only
        rw [e3, h3, Nat.succ_div_of_mod_eq_zero h, iter]
      · refine ⟨(st.1, st.2.set k (castU 8 (((st.1.getD (k % rate / 8) 0) >>> (8 * (k % rate % 8))) &&& classify 0xff#64))),
          by rw [if_neg h, bind_ok], h2, ?_, by rw [List.length_set, h4], hbits⟩
        simp only
        rw [h3, Nat.succ_div_of_mod_ne_zero h])
  exact ⟨st.2, by rw [squeeze, h1, bind_ok], h4, h5⟩

theorem squeeze_spec {rate : Nat} (hr : 0 < rate) (hr2 : rate ≤ 200) {s : List U64} (hs : s.length = 25) (n : Nat) :
    ∃ out, squeeze s n rate = .ok out ∧ out.length = n ∧
      bits out = (Spec.Fips202.output (8 * rate) ((8 * n + 8 * rate - 1) / (8 * rate)) (strOf s)).take (8 * n) := by
  obtain ⟨out, h1, h2, h3⟩ := squeeze_ok hr hr2 hs n
  refine ⟨out, h1, h2, ?_⟩
  have hcov : ∀ i, i < 8 * n → i < (8 * n + 8 * rate - 1) / (8 * rate) * (8 * rate) := by
    intro i hi
    have := Nat.div_add_mod (8 * n + 8 * rate - 1) (8 * rate)
    have h' := Nat.mod_lt (8 * n + 8 * rate - 1) (show 0 < 8 * rate by omega)
    rw [Nat.mul_comm] at this
    omega
  have hl := length_output (r := 8 * rate) (by omega) ((8 * n + 8 * rate - 1) / (8 * rate)) (length_strOf s)
  refine ext_getD false ?_ fun i hi => ?_
  · rw [length_bits, h2, List.length_take, hl]
    rcases Nat.eq_zero_or_pos n with rfl | hn
    · rfl
    · have := hcov (8 * n - 1) (by omega)
      omega
  · rw [length_bits, h2] at hi
    rw [getD_bits, h3 _ (by omega) _ (by omega), List.getD_eq_getElem?_getD (l := List.take _ _), List.getElem?_take, if_pos hi,
      ← List.getD_eq_getElem?_getD, getD_output (by omega) (by omega) (length_strOf s) (hcov i hi)]
    have e1 : i / (8 * rate) = i / 8 / rate := by rw [Nat.div_div_eq_div_mul]
    have e2 : i % (8 * rate) = 8 * (i / 8 % rate) + i % 8 := by rw [Nat.mod_mul]; omega
    rw [e1, e2]

/-- `keccak` is the sponge of FIPS 202. -/
theorem keccak_ok {p : U8} {sfx : List Bool} (h : Suffix p sfx) {rate : Nat} (hr : 0 < rate) (hr2 : rate ≤ 200) (d : List U8)
    (hd : d.length + rate < 2 ^ 64) (n : Nat) :
    ∃ out, keccak rate d p n = .ok out ∧ out.length = n ∧
      bits out = Spec.Fips202.sponge (8 * rate) (bits d ++ sfx) (8 * n) := by
  have hdm := Nat.div_add_mod d.length rate
  have hlt := Nat.mod_lt d.length hr
  obtain ⟨st, h1, h2, h3, h4, h5⟩ := absorb_ok hr hr2 d
  have hbl : (d.drop (rate * (d.length / rate))).length = d.length % rate := by simp; omega
  have hp := padBuf_ok p (d.drop (rate * (d.length / rate))) (rate := rate) (by omega)
  rw [hbl] at hp
  have hlen : (d.drop (rate * (d.length / rate)) ++ padBytes p (rate - d.length % rate)).length = rate := by
    rw [List.length_append, hbl, length_padBytes _ (by omega)]; omega
  obtain ⟨t, h6, h7, h8⟩ := absorbBlock_ok h4 (by rw [hlen]; exact hr2)
  obtain ⟨out, h9, h10, h11⟩ := squeeze_spec hr hr2 h7 n
  refine ⟨out, ?_, h10, ?_⟩
  · rw [keccak, numChunks_ok hr hd, bind_ok, h1, bind_ok, h2, h3, hp, bind_ok, h6, bind_ok, h9]
  · rw [h11, h8, hlen, h5, Spec.Fips202.sponge, absorb_spec h hr]

theorem output_prefix {r : Nat} (hr0 : 0 < r) (hr : r ≤ 1600) {S : List Bool} (h : S.length = 1600) {n n' k : Nat}
    (h1 : k ≤ n * r) (h2 : k ≤ n' * r) :
    (Spec.Fips202.output r n S).take k = (Spec.Fips202.output r n' S).take k := by
  have l1 := length_output hr n h
  have l2 := length_output hr n' h
  refine ext_getD false (by rw [List.length_take, List.length_take, l1, l2]; omega) fun i hi => ?_
  rw [List.length_take, l1] at hi
  rw [List.getD_eq_getElem?_getD, List.getD_eq_getElem?_getD, List.getElem?_take, List.getElem?_take, if_pos (by omega),
    if_pos (by omega), ← List.getD_eq_getElem?_getD, ← List.getD_eq_getElem?_getD, getD_output hr0 hr h (by omega),
    getD_output hr0 hr h (by omega)]

theorem cover {d r : Nat} (hr : 0 < r) : d ≤ (d + r - 1) / r * r := by
  have := Nat.div_add_mod (d + r - 1) r
  have h' := Nat.mod_lt (d + r - 1) hr
  rw [Nat.mul_comm] at this
  omega

theorem keccak_prefix {p : U8} {sfx : List Bool} (h : Suffix p sfx) {rate : Nat} (hr : 0 < rate) (hr2 : rate ≤ 200)
    (d : List U8) (hd : d.length + rate < 2 ^ 64) {n m : Nat} (hnm : n ≤ m) :
    ∃ t u, keccak rate d p n = .ok t ∧ keccak rate d p m = .ok u ∧ u.take n = t := by
  obtain ⟨t, h1, h2, h3⟩ := keccak_ok h hr hr2 d hd n
  obtain ⟨u, h4, h5, h6⟩ := keccak_ok h hr hr2 d hd m
  refine ⟨t, u, h1, h4, bits_inj ?_⟩
  have hl : (Spec.Fips202.absorb (8 * rate) (bits d ++ sfx)).length = 1600 := by
    rw [absorb_spec h hr]; exact length_keccakf _
  rw [bits_take, h6, h3, Spec.Fips202.sponge, Spec.Fips202.sponge, List.take_take, Nat.min_eq_left (by omega)]
  have c1 := cover (d := 8 * n) (r := 8 * rate) (by omega)
  have c2 := cover (d := 8 * m) (r := 8 * rate) (by omega)
  exact output_prefix (by omega) (by omega) hl (by omega) (by omega)

end Hacspec.Fips202
