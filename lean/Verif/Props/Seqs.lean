import Verif.Lemmas.Chunk
import Verif.Model.Hex
import Verif.Lemmas.VecInt
import Verif.Props.Ints

/-! # Property theorems C13–C19: sequences, arrays, hexadecimal strings, element-wise arithmetic -/

namespace Hacspec.Props

open SecretInt MachineInt Hacspec.Seq

variable {α : Type} [Inhabited α]

/-! ## C13 update_sub -/

/-- C13: `update_sub` succeeds exactly when both windows fit; the result has the same length, holds the
requested elements in the window and is unchanged elsewhere. -/
theorem C13_update_sub (self v : List α) (so si len : Nat) :
    (so + len ≤ self.length ∧ si + len ≤ v.length →
      ∃ r, updateSub self so v si len = .ok r ∧ r.length = self.length ∧
        (∀ i, i < len → r[so + i]? = v[si + i]?) ∧
        (∀ j, j < so ∨ so + len ≤ j → r[j]? = self[j]?)) ∧
    (¬ (so + len ≤ self.length ∧ si + len ≤ v.length) → updateSub self so v si len = panic) := by
  refine ⟨fun ⟨h1, h2⟩ => ⟨_, updateSub_ok h1 h2, ?_, ?_, ?_⟩, updateSub_panic⟩
  · simp; omega
  · intro i hi
    rw [List.append_assoc, List.getElem?_append_right (by simp; try omega),
      List.getElem?_append_left (by simp; omega), List.getElem?_take, if_pos (by simp; omega), List.getElem?_drop]
    congr 1; simp; omega
  · intro j hj
    rcases hj with hj | hj
    · rw [List.append_assoc, List.getElem?_append_left (by simp; omega), List.getElem?_take, if_pos hj]
    · rw [List.getElem?_append_right (by simp; omega), List.getElem?_drop]
      congr 1; simp; omega

/-- C13: `update` and `update_start` write the whole second sequence at the given position / at 0. -/
theorem C13_update (self v : List α) (start : Nat) :
    (start + v.length ≤ self.length →
      update self start v = .ok (self.take start ++ v ++ self.drop (start + v.length))) ∧
    (self.length < start + v.length → update self start v = panic) ∧
    (v.length ≤ self.length → updateStart self v = .ok (v ++ self.drop v.length)) ∧
    (self.length < v.length → updateStart self v = panic) := by
  refine ⟨fun h => ?_, fun h => ?_, fun h => ?_, fun h => ?_⟩
  · rw [update, updateSub_ok h (by omega)]; simp
  · exact updateSub_panic (by omega)
  · rw [updateStart, updateSub_ok (by omega) (by omega)]; simp
  · exact updateSub_panic (by omega)

example : updateSub [0, 0, 0, 0, 0] 2 [2, 3] 1 1 = .ok [0, 0, 3, 0, 0] := by decide
example : updateSub [0, 0, 0] 2 [2, 3] 0 2 = panic := by decide

/-! ## C14 chunks -/

/-- C14: the chunks of a sequence form a partition: `num_chunks` of them, concatenating to the sequence,
all of the requested size except possibly the last, which is not empty. -/
theorem C14_chunks_partition (self : List α) (cs : Nat) (hcs : 0 < cs) (hu : self.length + cs < 2 ^ 64) :
    ∃ C : List (List α), numChunks self cs = .ok C.length ∧ C.flatten = self ∧
      (∀ i (h : i < C.length), getChunk self cs i = .ok (C[i].length, C[i])) ∧
      (∀ i (h : i < C.length), 1 ≤ C[i].length ∧ C[i].length ≤ cs ∧ (i + 1 < C.length → C[i].length = cs)) := by
  refine ⟨chunks cs self, ?_, flatten_chunks hcs self, ?_, ?_⟩
  · rw [numChunks_ok hcs hu, length_chunks]
  · intro i h
    rw [length_chunks, ceil_div_iff hcs] at h
    rw [getChunk_ok (by omega), getElem_chunks]; simp
  · intro i h
    have h' := h
    rw [length_chunks, ceil_div_iff hcs] at h'
    rw [getElem_chunks]
    refine ⟨by simp; omega, by simp; try omega, fun h2 => ?_⟩
    rw [length_chunks, ceil_div_iff hcs, Nat.mul_succ] at h2
    simp; omega

/-- C14: `num_chunks` is the ceiling of `len / size`. -/
theorem C14_num_chunks (self : List α) (cs : Nat) (hu : self.length + cs < 2 ^ 64) :
    (0 < cs → ∃ n, numChunks self cs = .ok n ∧ cs * n < self.length + cs ∧ self.length ≤ cs * n) ∧
    (cs = 0 → numChunks self cs = panic) := by
  constructor
  · intro hcs
    refine ⟨_, numChunks_ok hcs hu, ?_⟩
    have h1 := Nat.div_add_mod (self.length + cs - 1) cs
    have h2 := Nat.mod_lt (self.length + cs - 1) hcs
    omega
  · intro h
    subst h
    rw [numChunks, require_true hu, bind_ok]
    by_cases h : 1 ≤ self.length + 0
    · rw [require_true h, bind_ok, require_false (by simp), bind_panic]
    · rw [require_false h, bind_panic]

/-- C14: `get_chunk` panics exactly when the chunk would start beyond the end; a chunk starting exactly
at the end is empty. -/
theorem C14_get_chunk_panics (self : List α) (cs i : Nat) :
    (getChunk self cs i = panic ↔ self.length < cs * i) ∧
    (cs * i = self.length → getChunk self cs i = .ok (0, [])) := by
  constructor
  · by_cases h : self.length < cs * i
    · simp [getChunk_panic h, h]
    · rw [getChunk_ok (by omega)]; simp [h]
  · intro h
    rw [getChunk_ok (by omega)]; simp [h]

example : numChunks [1, 2, 3, 4, 5] 2 = .ok 3 := by decide
example : getChunk [1, 2, 3, 4, 5] 2 2 = .ok (1, [5]) := by decide
example : getChunk [1, 2, 3, 4, 5] 2 3 = panic := by decide

/-! ## C15 lens laws -/

/-- C15: `set_chunk` succeeds exactly when the chunk exists and the input has the chunk's length; then
reading the chunk gives the input, the length is unchanged and all other chunks are unchanged. -/
theorem C15_set_get (self input : List α) (cs i : Nat) (_hcs : 0 < cs) :
    (∀ c, getChunk self cs i = .ok (input.length, c) →
      ∃ r, setChunk self cs i input = .ok r ∧ r.length = self.length ∧
        getChunk r cs i = .ok (input.length, input) ∧
        ∀ j, j ≠ i → getChunk r cs j = getChunk self cs j) ∧
    ((∀ c, getChunk self cs i ≠ .ok (input.length, c)) → setChunk self cs i input = panic) := by
  constructor
  · intro c hc
    by_cases h : cs * i ≤ self.length
    · rw [getChunk_ok h] at hc
      simp only [Except.ok.injEq, Prod.mk.injEq] at hc
      have hi := hc.1.symm
      have hlen : (self.take (cs * i) ++ input ++ self.drop (cs * i + input.length)).length = self.length := by
        simp; omega
      refine ⟨_, setChunk_ok h hi, hlen, ?_, ?_⟩
      · rw [getChunk_ok (by rw [hlen]; exact h), hlen, ← hi]
        congr 2
        rw [List.append_assoc, List.drop_left' (by simp; omega)]
        by_cases hfull : cs ≤ self.length - cs * i
        · rw [List.take_left' (by omega)]
        · rw [List.drop_of_length_le (by omega), List.append_nil, List.take_of_length_le (by omega)]
      · intro j hj
        by_cases hjl : cs * j ≤ self.length
        · rw [getChunk_ok (by rw [hlen]; exact hjl), getChunk_ok hjl, hlen]
          congr 2
          apply window_other (by omega) rfl
          rcases Nat.lt_or_gt_of_ne hj with h' | h'
          · left; exact mul_window h'
          · right; have := mul_window (cs := cs) h'; omega
        · rw [getChunk_panic (by rw [hlen]; omega), getChunk_panic (by omega)]
    · rw [getChunk_panic (by omega)] at hc; simp at hc
  · intro hc
    apply setChunk_panic
    rintro ⟨h, hi⟩
    apply hc
    rw [getChunk_ok h, hi]

/-- C15: writing back what was read changes nothing. -/
theorem C15_get_set (self c : List α) (cs i n : Nat) (h : getChunk self cs i = .ok (n, c)) :
    setChunk self cs i c = .ok self := by
  by_cases hl : cs * i ≤ self.length
  · rw [getChunk_ok hl] at h
    simp only [Except.ok.injEq, Prod.mk.injEq] at h
    obtain ⟨_, rfl⟩ := h
    rw [setChunk_ok hl (by simp)]
    congr 1
    rw [List.append_assoc, ← List.drop_drop]
    conv => rhs; rw [← List.take_append_drop (cs * i) self]
    congr 1
    conv => rhs; rw [← List.take_append_drop cs (self.drop (cs * i))]
    congr 1
    rw [List.length_take]
    by_cases hc : cs ≤ (self.drop (cs * i)).length
    · rw [Nat.min_eq_left hc]
    · rw [Nat.min_eq_right (by omega), List.drop_of_length_le (by omega), List.drop_of_length_le (by omega)]
  · rw [getChunk_panic (by omega)] at h; simp at h

/-- C15: filling all chunks, in order, with lists of the chunk lengths produces their concatenation. -/
theorem C15_fill_all (self : List α) (cs : Nat) (hcs : 0 < cs) (hu : self.length + cs < 2 ^ 64)
    (D : List (List α)) (hn : numChunks self cs = .ok D.length)
    (hD : ∀ i (h : i < D.length), ∃ c, getChunk self cs i = .ok (D[i].length, c)) :
    loop D.length (fun i s => do
      let x ← idx D i
      setChunk s cs i x) self = .ok D.flatten := by
  rw [numChunks_ok hcs hu, Except.ok.injEq] at hn
  have hlt : ∀ i, i < D.length ↔ cs * i < self.length := fun i => by rw [← hn, ceil_div_iff hcs]
  apply fill_chunks hcs D self _ hlt
  intro i h
  obtain ⟨c, hc⟩ := hD i h
  have := (hlt i).mp h
  rw [getChunk_ok (by omega)] at hc
  simp only [Except.ok.injEq, Prod.mk.injEq] at hc
  exact hc.1.symm

example : setChunk [1, 2, 3, 4, 5] 2 2 [9] = .ok [1, 2, 3, 4, 9] := by decide
example : setChunk [1, 2, 3, 4, 5] 2 2 [9, 9] = panic := by decide
example : ∃ r, setChunk [1, 2, 3, 4, 5] 2 1 [8, 9] = .ok r ∧ r.length = 5 ∧
    getChunk r 2 1 = .ok (2, [8, 9]) ∧ ∀ j, j ≠ 1 → getChunk r 2 j = getChunk [1, 2, 3, 4, 5] 2 j :=
  (C15_set_get [1, 2, 3, 4, 5] [8, 9] 2 1 (by decide)).1 [3, 4] (by decide)

/-! ## C16 sub-sequences and conversions -/

/-- C16: `sub`, `from_sub`: exactly the window, panic iff out of range. -/
theorem C16_sub (self : List α) (start len : Nat) :
    (start + len ≤ self.length →
      ∃ r, sub self start len = .ok r ∧ fromSub self start len = .ok r ∧ r.length = len ∧
        ∀ i, i < len → r[i]? = self[start + i]?) ∧
    (self.length < start + len → sub self start len = panic ∧ fromSub self start len = panic) := by
  refine ⟨fun h => ⟨_, sub_ok h, fromSub_ok h, by simp; omega, fun i hi => ?_⟩,
    fun h => ⟨sub_panic h, fromSub_panic h⟩⟩
  rw [List.getElem?_take, if_pos hi, List.getElem?_drop]

/-- C16: the range variants are `sub` on `start .. end` and panic when the range is reversed. -/
theorem C16_range (self : List α) (a b : Nat) :
    (a ≤ b → subr self a b = sub self a (b - a) ∧ fromSubRange self a b = fromSub self a (b - a)) ∧
    (b < a → subr self a b = panic ∧ fromSubRange self a b = panic) := by
  refine ⟨fun h => ⟨?_, ?_⟩, fun h => ⟨?_, ?_⟩⟩
  · rw [subr, require_true h, bind_ok]
  · rw [fromSubRange, require_true h, bind_ok]
  · rw [subr, require_false (by omega), bind_panic]
  · rw [fromSubRange, require_false (by omega), bind_panic]

/-- C16: array constructors are exact: `from_vec`, `from_seq` and `from_sub` return their source (window)
and panic iff its length is not the declared one; `create` returns zeros iff the length is the declared one. -/
theorem C16_array_exact (l : Nat) (x : List α) (start len : Nat) :
    (x.length = l → arrFromVec l x = .ok x ∧ arrFromSeq l x = .ok x) ∧
    (x.length ≠ l → arrFromVec l x = panic ∧ arrFromSeq l x = panic) ∧
    (len = l → start + len ≤ x.length → arrFromSub l x start len = .ok ((x.drop start).take len)) ∧
    (¬ (len = l ∧ start + len ≤ x.length) → arrFromSub l x start len = panic) ∧
    (arrCreate l len = if len = l then .ok (List.replicate l (default : α)) else panic) := by
  refine ⟨fun h => ⟨arrFromVec_ok h, arrFromSeq_ok h⟩, fun h => ⟨arrFromVec_panic h, arrFromSeq_panic h⟩,
    fun h h2 => ?_, fun h => ?_, ?_⟩
  · rw [arrFromSub, require_true h, bind_ok, ← h]; exact fromSub_ok h2
  · rw [arrFromSub]
    by_cases h1 : len = l
    · rw [require_true h1, bind_ok]; exact updateSub_panic (by omega)
    · rw [require_false h1, bind_panic]
  · by_cases h : len = l
    · rw [if_pos h, arrCreate, require_true h, bind_ok, new]
    · rw [if_neg h, arrCreate, require_false h, bind_panic]

/-- C16: `from_slice` of arrays copies and zero-pads, panicking iff the slice is too long;
`Seq::from_seq` is the identity. -/
theorem C16_from_slice (l : Nat) (x : List α) :
    (x.length ≤ l → ∃ r, arrFromSlice l x = .ok r ∧ r.length = l ∧ (∀ i, i < x.length → r[i]? = x[i]?) ∧
      ∀ i, x.length ≤ i → i < l → r[i]? = some default) ∧
    (l < x.length → arrFromSlice l x = panic) ∧
    fromSeq x = .ok x ∧ fromVec x = x := by
  refine ⟨fun h => ⟨_, arrFromSlice_ok h, by simp; omega, fun i hi => ?_, fun i hi hl => ?_⟩,
    arrFromSlice_panic, fromSeq_ok x, rfl⟩
  · rw [List.getElem?_append_left hi]
  · rw [List.getElem?_append_right hi, List.getElem?_replicate, if_pos (by omega)]

/-- C16: conversions between public and secret arrays keep every element; `declassify_eq` (and `==` on
byte sequences) is equality. -/
theorem C16_public_secret {w : Nat} (l : Nat) (x y : List (BitVec w)) :
    (x.length = l → arrFromPublicSlice l x = .ok x ∧ arrFromOther l x = .ok x) ∧
    (x.length ≠ l → arrFromPublicSlice l x = panic ∧ arrFromOther l x = panic) ∧
    (declassifyEq x y = true ↔ x = y) := by
  have hm : ∀ z : List (BitVec w), z.map classify = z := fun z => map_id_of_forall (f := classify) (fun _ _ => rfl)
  have hm' : ∀ z : List (BitVec w), z.map declassify = z := fun z => map_id_of_forall (f := declassify) (fun _ _ => rfl)
  refine ⟨fun h => ⟨?_, ?_⟩, fun h => ⟨?_, ?_⟩, ?_⟩
  · rw [arrFromPublicSlice, require_true h, bind_ok, hm, arrFromVec_ok h]
  · rw [arrFromOther, hm, arrFromVec_ok h]
  · rw [arrFromPublicSlice, require_false h, bind_panic]
  · rw [arrFromOther, hm, arrFromVec_panic h]
  · simp [declassifyEq, hm']

example : sub [1, 2, 3, 4] 1 2 = .ok [2, 3] := by decide
example : subr [1, 2, 3, 4] 3 2 = panic := by decide
example : arrFromSlice 4 [7#8, 9#8] = .ok [7#8, 9#8, 0#8, 0#8] := by decide
example : arrFromSeq 3 [7#8, 9#8] = panic := by decide

/-! ## C17 hexadecimal strings -/

section Hex
open Hex

/-- Specification: value of a hexadecimal digit character (either case). -/
def hexVal (c : U8) : Option Nat :=
  ("0123456789abcdef".toList.idxOf? (Char.ofNat c.toNat)).or
    ("0123456789ABCDEF".toList.idxOf? (Char.ofNat c.toNat))

theorem digit_eq_hexVal : ∀ c : U8, digit c = hexVal c := by decide +kernel

theorem parse_fmt : ∀ b : U8, parsePair (hexChar (b.toNat / 16)) (hexChar (b.toNat % 16)) = some b := by
  decide +kernel

theorem fmt_lower : ∀ b : U8, ∀ c ∈ fmt02x b,
    (48 ≤ c.toNat ∧ c.toNat ≤ 57) ∨ (97 ≤ c.toNat ∧ c.toNat ≤ 102) := by decide +kernel

theorem fromHex_toHex (b : List U8) : hexStringToBytes (toHex b) = .ok b := by
  induction b with
  | nil => rfl
  | cons x xs ih =>
    simp only [toHex, List.flatMap_cons, fmt02x, List.cons_append, List.nil_append] at ih ⊢
    rw [hexStringToBytes, parse_fmt]
    simp [ih]

/-- C17: `from_hex(to_hex(b)) = b` for sequences and for arrays of the right length. -/
theorem C17_roundtrip (b : List U8) :
    seqFromHex (toHex b) = .ok b ∧ arrFromHex b.length (toHex b) = .ok b := by
  constructor
  · rw [seqFromHex, fromHex_toHex, bind_ok, fromVec, map_id_of_forall (f := classify) (fun _ _ => rfl)]
  · rw [arrFromHex, fromHex_toHex, bind_ok, require_true rfl, bind_ok,
      copy_loop _ _ (by rw [length_new])]
    simp [new]

/-- C17: `to_hex` has length `2·len`, uses lower-case hexadecimal digits only and is injective. -/
theorem C17_to_hex (a b : List U8) :
    (toHex b).length = 2 * b.length ∧
    (∀ c ∈ toHex b, (48 ≤ c.toNat ∧ c.toNat ≤ 57) ∨ (97 ≤ c.toNat ∧ c.toNat ≤ 102)) ∧
    (toHex a = toHex b → a = b) := by
  refine ⟨?_, ?_, ?_⟩
  · induction b with
    | nil => rfl
    | cons x xs ih => simp [toHex, fmt02x] at ih ⊢; omega
  · intro c hc
    simp only [toHex, List.mem_flatMap] at hc
    obtain ⟨x, _, hx⟩ := hc
    exact fmt_lower x c hx
  · intro h
    have h1 := fromHex_toHex a
    rw [h, fromHex_toHex b] at h1
    exact (Except.ok.inj h1).symm

/-- C17: a string of pairs of hexadecimal digits (either case) is decoded to the bytes they denote. -/
theorem C17_from_hex (s : List (U8 × U8)) (v : List (Nat × Nat))
    (h : List.Forall₂ (fun c d => hexVal c.1 = some d.1 ∧ hexVal c.2 = some d.2) s v) :
    seqFromHex (s.flatMap fun c => [c.1, c.2]) = .ok (v.map fun d => BitVec.ofNat 8 (16 * d.1 + d.2)) := by
  have : hexStringToBytes (s.flatMap fun c => [c.1, c.2]) =
      .ok (v.map fun d => BitVec.ofNat 8 (16 * d.1 + d.2)) := by
    induction h with
    | nil => rfl
    | @cons c d s v hc _ ih =>
      simp only [List.flatMap_cons, List.cons_append, List.nil_append, hexStringToBytes]
      have hp : c.1.toNat ≠ 43 := by
        intro h43
        have : c.1 = 43#8 := BitVec.eq_of_toNat_eq h43
        have h1 := hc.1
        rw [this, ← digit_eq_hexVal] at h1
        simp [digit] at h1
      rw [parsePair, if_neg hp, digit_eq_hexVal, digit_eq_hexVal, hc.1, hc.2]
      simp only [ih, bind_ok, List.map_cons]
  rw [seqFromHex, this, bind_ok, fromVec, map_id_of_forall (f := classify) (fun _ _ => rfl)]

theorem hex_odd : ∀ (n : Nat) (s : List U8), s.length = 2 * n + 1 → hexStringToBytes s = panic := by
  intro n
  induction n with
  | zero =>
    intro s hs
    match s, hs with
    | [_], _ => rfl
  | succ n ih =>
    intro s hs
    match s, hs with
    | a :: b :: rest, hs =>
      rw [hexStringToBytes]
      cases parsePair a b with
      | none => rfl
      | some x => simp only [List.length_cons] at hs; simp [ih rest (by omega)]

/-- C17: strings of odd length are rejected with a panic. -/
theorem C17_odd_panics (s : List U8) (h : s.length % 2 = 1) (l : Nat) :
    seqFromHex s = panic ∧ arrFromHex l s = panic := by
  have := hex_odd (s.length / 2) s (by omega)
  simp [seqFromHex, arrFromHex, this]

/-- C17: any accepted string consists of pairs whose second character is a hexadecimal digit and whose
first is a hexadecimal digit or `+`; everything else panics. -/
theorem C17_accepts_only_partial (s : List U8) (b : List U8) (h : seqFromHex s = .ok b) :
    s.length = 2 * b.length ∧
    ∀ i, i < b.length → ∃ c0 c1, s[2 * i]? = some c0 ∧ s[2 * i + 1]? = some c1 ∧
      ((hexVal c0).isSome ∨ c0 = 43#8) ∧ (hexVal c1).isSome := by
  have hb : hexStringToBytes s = .ok b := by
    rw [seqFromHex] at h
    obtain ⟨v, hv, h2⟩ := bind_eq_ok.mp h
    rw [hv]; rw [fromVec, map_id_of_forall (f := classify) (fun _ _ => rfl)] at h2; exact h2
  clear h
  induction s using hexStringToBytes.induct generalizing b with
  | case1 => simp [hexStringToBytes] at hb; subst hb; simp
  | case2 => simp [hexStringToBytes] at hb
  | case3 c0 c1 rest hp => rw [hexStringToBytes, hp] at hb; simp at hb
  | case4 c0 c1 rest x hp ih =>
    rw [hexStringToBytes, hp] at hb
    obtain ⟨bs, hbs, h2⟩ := bind_eq_ok.mp hb
    simp only [Except.ok.injEq] at h2
    subst h2
    obtain ⟨hl, hi⟩ := ih bs hbs
    refine ⟨by simp [hl]; omega, ?_⟩
    intro i hib
    cases i with
    | zero =>
      refine ⟨c0, c1, rfl, rfl, ?_⟩
      rw [parsePair] at hp
      split at hp
      · rename_i h43
        refine ⟨Or.inr (BitVec.eq_of_toNat_eq h43), ?_⟩
        rw [← digit_eq_hexVal]
        cases hd : digit c1 with
        | none => simp [hd] at hp
        | some _ => rfl
      · rw [← digit_eq_hexVal, ← digit_eq_hexVal]
        cases hd0 : digit c0 <;> cases hd1 : digit c1 <;> simp [hd0, hd1] at hp ⊢
    | succ i =>
      obtain ⟨d0, d1, e0, e1, h'⟩ := hi i (by simpa using hib)
      exact ⟨d0, d1, by rw [← e0]; simp [Nat.mul_succ], by rw [← e1]; simp [Nat.mul_succ], h'⟩

/-- C17 refuted: "every character that is not a hexadecimal digit is rejected" is false: `"+f"` is
decoded to `0x0f`, like `"0f"`. -/
theorem C17_rejects_non_hex_refuted :
    hexVal 43#8 = none ∧ seqFromHex [43#8, 102#8] = .ok [0x0f#8] ∧ seqFromHex [48#8, 102#8] = .ok [0x0f#8] := by
  decide +kernel

example : seqFromHex ("dEadbeef".toList.map fun c => BitVec.ofNat 8 c.toNat) =
    .ok [0xde#8, 0xad#8, 0xbe#8, 0xef#8] := by decide +kernel
example : seqFromHex ("zz".toList.map fun c => BitVec.ofNat 8 c.toNat) = panic := by decide +kernel

end Hex

/-! ## C18 word views of byte arrays -/

/-- C18: the big- and little-endian word views of a byte array split it into consecutive words with the
stated endianness, and converting the words back gives the bytes. -/
theorem C18_word_views {w l : Nat} (hw : 0 < w) (h8 : w % 8 = 0) (self : List U8) (hl : self.length = l)
    (hd : l % (w / 8) = 0) :
    (∃ ws, arrToBeWords w l self = .ok ws ∧ ws.length = l / (w / 8) ∧
      (∀ i (h : i < ws.length), (ws[i]).toNat = base256 ((self.drop (w / 8 * i)).take (w / 8)).reverse) ∧
      arrToBeBytes (l / (w / 8)) ws = .ok self) ∧
    (∃ ws, arrToLeWords w l self = .ok ws ∧ ws.length = l / (w / 8) ∧
      (∀ i (h : i < ws.length), (ws[i]).toNat = base256 ((self.drop (w / 8 * i)).take (w / 8))) ∧
      arrToLeBytes (l / (w / 8)) ws = .ok self) := by
  have hk : 0 < w / 8 := by omega
  obtain ⟨⟨xs, hx1, hx2, hx3⟩, ys, hy1, hy2, hy3⟩ := (C03_encode_decode hw h8 self).1 (by rw [hl]; exact hd)
  have ex : fromLeBytes w self = .ok ((chunks (w / 8) self).map (wordOfLe w)) := by
    rw [fromLeBytes, require_true (by rw [hl]; exact hd), bind_ok]
  have ey : fromBeBytes w self = .ok ((chunks (w / 8) self).map (wordOfBe w)) := by
    rw [fromBeBytes, require_true (by rw [hl]; exact hd), bind_ok]
  have ex' := hx1; rw [ex, Except.ok.injEq] at ex'
  have ey' := hy1; rw [ey, Except.ok.injEq] at ey'
  rw [hl] at hx2 hy2
  constructor
  · refine ⟨ys, by rw [arrToBeWords_ok hk hl hd, ey'], hy2, ?_, ?_⟩
    · intro i h
      obtain ⟨zs, z, h1, h2, h3⟩ := (C03_positional h8 hw self (by rw [hl]; exact hd) i (by rw [hl, ← hy2]; exact h)).2
      rw [hy1, Except.ok.injEq] at h1
      subst h1
      rw [List.getElem?_eq_getElem h, Option.some.injEq] at h2
      rw [h2, h3]
    · rw [arrToBeBytes_ok hy2, ← hy3]; rfl
  · refine ⟨xs, by rw [arrToLeWords_ok hk hl hd, ex'], hx2, ?_, ?_⟩
    · intro i h
      obtain ⟨zs, z, h1, h2, h3⟩ := (C03_positional h8 hw self (by rw [hl]; exact hd) i (by rw [hl, ← hx2]; exact h)).1
      rw [hx1, Except.ok.injEq] at h1
      subst h1
      rw [List.getElem?_eq_getElem h, Option.some.injEq] at h2
      rw [h2, h3]
    · rw [arrToLeBytes_ok hx2, ← hx3]; rfl

/-- C18: starting from a word array, its bytes viewed as words are the array. -/
theorem C18_words_of_bytes {w l : Nat} (hw : 0 < w) (h8 : w % 8 = 0) (ws : List (BitVec w)) (hl : ws.length = l) :
    (∃ bs, arrToBeBytes l ws = .ok bs ∧ bs.length = l * (w / 8) ∧ arrToBeWords w (l * (w / 8)) bs = .ok ws) ∧
    (∃ bs, arrToLeBytes l ws = .ok bs ∧ bs.length = l * (w / 8) ∧ arrToLeWords w (l * (w / 8)) bs = .ok ws) := by
  have hk : 0 < w / 8 := by omega
  have hlen : ∀ f : BitVec w → List U8, (∀ x, (f x).length = w / 8) → (ws.flatMap f).length = l * (w / 8) := by
    intro f hf
    rw [List.length_flatMap, List.map_congr_left (fun x _ => hf x)]
    simp [hl]
  constructor
  · refine ⟨_, arrToBeBytes_ok hl, hlen _ length_beOfWord, ?_⟩
    rw [arrToBeWords_ok hk (hlen _ length_beOfWord) (Nat.mul_mod_left _ _), chunks_flatMap hk _ length_beOfWord,
      List.map_map, map_id_of_forall (f := wordOfBe w ∘ beOfWord) (fun x _ => wordOfBe_beOfWord h8 x)]
  · refine ⟨_, arrToLeBytes_ok hl, hlen _ length_leOfWord, ?_⟩
    rw [arrToLeWords_ok hk (hlen _ length_leOfWord) (Nat.mul_mod_left _ _), chunks_flatMap hk _ length_leOfWord,
      List.map_map, map_id_of_forall (f := wordOfLe w ∘ leOfWord) (fun x _ => wordOfLe_leOfWord h8 x)]

/-- C18: the public variants agree with the secret ones. -/
theorem C18_public_views {w l : Nat} (hw : 8 ≤ w) (self : List U8) (hl : self.length = l) (hd : l % (w / 8) = 0) :
    arrToPubWords l (wordOfBe w) self = arrToBeWords w l self ∧
    arrToPubWords l (wordOfLe w) self = arrToLeWords w l self := by
  have hk : 0 < w / 8 := by omega
  rw [arrToBeWords_ok hk hl hd, arrToLeWords_ok hk hl hd, arrToPubWords_ok hk hl hd, arrToPubWords_ok hk hl hd]
  exact ⟨rfl, rfl⟩

/-- C18: the free conversion functions `UN_to_le_bytes`, `UN_from_le_bytes`, ... are mutually inverse. -/
theorem C18_free_functions {w : Nat} (hw : 0 < w) (h8 : w % 8 = 0) (x : BitVec w) (s : List U8)
    (hs : s.length = w / 8) :
    (wordToLeBytes x >>= wordFromLeBytes w) = .ok x ∧ (wordToBeBytes x >>= wordFromBeBytes w) = .ok x ∧
    (wordFromLeBytes w s >>= wordToLeBytes) = .ok s ∧ (wordFromBeBytes w s >>= wordToBeBytes) = .ok s := by
  have hk : 0 < w / 8 := by omega
  refine ⟨?_, ?_, ?_, ?_⟩
  · rw [wordToLeBytes_ok, bind_ok, wordFromLeBytes_ok hk (length_leOfWord x), wordOfLe_leOfWord h8]
  · rw [wordToBeBytes_ok, bind_ok, wordFromBeBytes_ok hk (length_beOfWord x), wordOfBe_beOfWord h8]
  · rw [wordFromLeBytes_ok hk hs, bind_ok, wordToLeBytes_ok, leOfWord_wordOfLe h8 s hs]
  · rw [wordFromBeBytes_ok hk hs, bind_ok, wordToBeBytes_ok, beOfWord_wordOfBe h8 s hs]

example : arrToBeWords 32 8 [1, 2, 3, 4, 5, 6, 7, 8] = .ok [0x01020304#32, 0x05060708#32] := by decide
example : arrToLeWords 32 8 [1, 2, 3, 4, 5, 6, 7, 8] = .ok [0x04030201#32, 0x08070605#32] := by decide

/-! ## C19 element-wise arithmetic -/

section VecInt
open VecInt

variable {w : Nat}

/-- C19: `+`, `-`, `*`, `^` on arrays act independently on every position and never panic. -/
theorem C19_arrays (l : Nat) (a b : List (BitVec w)) (ha : a.length = l) (hb : b.length = l) :
    arrAdd l a b = .ok (List.zipWith (· + ·) a b) ∧
    arrSub l a b = .ok (List.zipWith (· - ·) a b) ∧
    arrMulSecret l a b = .ok (List.zipWith (· * ·) a b) ∧
    arrMulPublic a b = .ok (List.zipWith (· * ·) a b) ∧
    arrXorPublic l a b = .ok (List.zipWith (· ^^^ ·) a b) ∧
    arrXorSecret l a b = .ok (List.zipWith (· ^^^ ·) a b) := by
  have hab : a.length = b.length := by omega
  have hn : (new l : List (BitVec w)).length = a.length := by rw [length_new, ha]
  refine ⟨?_, ?_, ?_, ?_, ?_, ?_⟩
  · rw [arrAdd, require_true hab, bind_ok]; exact zipLoop_ok hab hn (fun _ _ _ => rfl)
  · rw [arrSub, require_true hab, bind_ok]; exact zipLoop_ok hab hn (fun _ _ _ => rfl)
  · rw [arrMulSecret, require_true hab, bind_ok]; exact zipLoop_ok hab hn (fun _ _ _ => rfl)
  · rw [arrMulPublic, require_true hab, bind_ok, vecPolyMul, vecPoly, require_true hab, bind_ok]
    exact zipLoop_ok hab (by rw [length_new]) (fun _ _ _ => by simp; rfl)
  · rw [arrXorPublic, require_true hab, bind_ok]; exact zipLoop_ok hab hn (fun _ _ _ => rfl)
  · rw [arrXorSecret]; exact zipLoop_ok hab hn (fun _ _ _ => rfl)

/-- C19: `/` on public arrays is element-wise integer division and panics iff some divisor is zero. -/
theorem C19_array_div (l : Nat) (a b : List (BitVec w)) (ha : a.length = l) (hb : b.length = l) :
    (0#w ∉ b → arrDiv l a b = .ok (List.zipWith (· / ·) a b)) ∧ (0#w ∈ b → arrDiv l a b = panic) := by
  have hab : a.length = b.length := by omega
  have hn : (new l : List (BitVec w)).length = a.length := by rw [length_new, ha]
  constructor
  · intro h0
    rw [arrDiv, require_true hab, bind_ok]
    refine zipLoop_ok hab hn (fun i h1 h2 => ?_)
    have : b[i] ≠ 0#w := fun h => h0 (h ▸ List.getElem_mem h2)
    simp [divU, this]
  · intro h0
    -- the first zero divisor
    obtain ⟨k, hk, hz, hfirst⟩ : ∃ k, ∃ hk : k < b.length, b[k] = 0#w ∧ ∀ j (hj : j < k), b[j] ≠ 0#w := by
      obtain ⟨n, hn, hbn⟩ := List.getElem_of_mem h0
      induction n using Nat.strongRecOn with
      | ind n ih =>
        by_cases h : ∃ j, ∃ hj : j < n, b[j]'(by omega) = 0#w
        · obtain ⟨j, hj, hz⟩ := h
          exact ih j hj (by omega) hz
        · exact ⟨n, by omega, hbn, fun j hj hz => h ⟨j, hj, hz⟩⟩
    rw [arrDiv, require_true hab, bind_ok, zipLoop]
    have hp := fill_loop (n := k) (o := 0) (s := (new l : List (BitVec w)))
      (body := fun i out => do
        let a ← idx a i
        let b ← idx b i
        let c ← divU a b
        setIdx out i c) (fun i => a.getD i 0#w / b.getD i 0#w)
      (by
        intro i hi t ht
        have hai : i < a.length := by omega
        have hbi : i < b.length := by omega
        rw [idx_ok hai, bind_ok, idx_ok hbi, bind_ok]
        have : b[i] ≠ 0#w := hfirst i hi
        rw [divU, if_neg this, bind_ok, Nat.zero_add, setIdx_ok (by omega)]
        simp [List.getD_eq_getElem?_getD, List.getElem?_eq_getElem hai, List.getElem?_eq_getElem hbi])
      (by rw [length_new]; omega)
    apply loop_panic (k := k) (by omega) hp
    rw [idx_ok (show k < a.length by omega), bind_ok, idx_ok hk, bind_ok, hz]
    simp [divU]

/-- C19: `+`, `-`, `*` on `PublicSeq` are element-wise and panic exactly on a length mismatch. -/
theorem C19_public_seq (a b : List (BitVec w)) :
    (a.length = b.length →
      pubSeqAdd a b = .ok (List.zipWith (· + ·) a b) ∧ pubSeqSub a b = .ok (List.zipWith (· - ·) a b) ∧
      pubSeqMul a b = .ok (List.zipWith (· * ·) a b)) ∧
    (a.length ≠ b.length → pubSeqAdd a b = panic ∧ pubSeqSub a b = panic ∧ pubSeqMul a b = panic) := by
  constructor
  · intro hab
    refine ⟨?_, ?_, ?_⟩
    · rw [pubSeqAdd, vecPolyAdd, vecPoly, require_true hab, bind_ok]
      exact zipLoop_ok hab (by rw [length_new]) (fun _ _ _ => by simp; rfl)
    · rw [pubSeqSub, vecPolySub, vecPoly, require_true hab, bind_ok]
      exact zipLoop_ok hab (by rw [length_new]) (fun _ _ _ => by simp; rfl)
    · rw [pubSeqMul, vecPolyMul, vecPoly, require_true hab, bind_ok]
      exact zipLoop_ok hab (by rw [length_new]) (fun _ _ _ => by simp; rfl)
  · intro hab
    simp [pubSeqAdd, pubSeqSub, pubSeqMul, vecPolyAdd, vecPolySub, vecPolyMul, vecPoly, hab]

/-- C19: the modular variants `vec_poly_add/mul` reduce every position modulo `n` (when the element
operation does not overflow). -/
theorem C19_modular (a b : List (BitVec w)) (n : BitVec w) (hab : a.length = b.length) (hn : n ≠ 0#w)
    (h : ∀ i (h1 : i < a.length) (h2 : i < b.length), a[i].toNat + b[i].toNat < 2 ^ w ∧ a[i].toNat * b[i].toNat < 2 ^ w) :
    vecPolyAdd a b n = .ok (List.zipWith (fun x y => BitVec.ofNat w ((x.toNat + y.toNat) % n.toNat)) a b) ∧
    vecPolyMul a b n = .ok (List.zipWith (fun x y => BitVec.ofNat w ((x.toNat * y.toNat) % n.toNat)) a b) := by
  have key : ∀ (m : M (BitVec w)) (v : Nat), (∃ r, m = .ok r ∧ r.toNat = v) → m = .ok (BitVec.ofNat w v) := by
    rintro m v ⟨r, rfl, hr⟩
    rw [← hr, BitVec.ofNat_toNat, BitVec.setWidth_eq]
  constructor
  · rw [vecPolyAdd, vecPoly, require_true hab, bind_ok]
    refine zipLoop_ok hab (by rw [length_new]) (fun i h1 h2 => ?_)
    rw [if_pos hn]
    exact key _ _ ((C10_add_mul_mod_unsigned a[i] b[i] n).1 hn (h i h1 h2).1)
  · rw [vecPolyMul, vecPoly, require_true hab, bind_ok]
    refine zipLoop_ok hab (by rw [length_new]) (fun i h1 h2 => ?_)
    rw [if_pos hn]
    exact key _ _ ((C10_add_mul_mod_unsigned a[i] b[i] n).2.2.1 hn (h i h1 h2).2)

/-- Specification: coefficient `k` of the product of two polynomials given by coefficient lists. -/
def polyProductCoeff (a b : List (BitVec w)) (k : Nat) : BitVec w :=
  (List.range (k + 1)).foldl (fun s i => s + a.getD i 0#w * b.getD (k - i) 0#w) 0#w

/-- C19 refuted for `PublicSeq`: `^` always returns the empty sequence, whatever the operands. -/
theorem C19_public_xor_refuted (a b : List (BitVec w)) : pubSeqXor a b = [] := rfl

/-- C19 refuted: `*` on `PublicSeq`, documented as polynomial multiplication, is not the polynomial
product (`(1 + x)·(1 + x)` loses its middle coefficient 2). -/
theorem C19_public_mul_poly_refuted :
    ∃ a b r : List (BitVec 8), pubSeqMul a b = .ok r ∧ r.getD 1 0#8 ≠ polyProductCoeff a b 1 :=
  ⟨[1, 1], [1, 1], [1, 1], by decide, by decide⟩

example : arrAdd 2 [250#8, 3#8] [10#8, 4#8] = .ok [4#8, 7#8] := by decide
example : arrDiv 2 [250#8, 3#8] [10#8, 0#8] = panic := by decide
example : pubSeqAdd [1#8] [1#8, 2#8] = panic := by decide
example : vecPolyMul [5#8, 6#8] [3#8, 7#8] 7#8 = .ok [1#8, 0#8] := by decide

end VecInt

end Hacspec.Props
