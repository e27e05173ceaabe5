import Verif.Model.SecretInt

/-! # Helper lemmas about the secret-integer model -/

namespace Hacspec.SecretInt

variable {w : Nat}

theorem negU_eq (x : BitVec w) : negU x = -x := by
  simp [negU, BitVec.neg_eq_not_add]

theorem msb_shift_sub_one (hw : 0 < w) (z : BitVec w) :
    (z >>> (w - 1)) - 1#w = if z.msb then 0#w else BitVec.allOnes w := by
  have h : z >>> (w - 1) = if z.msb then 1#w else 0#w := by
    apply BitVec.eq_of_toNat_eq
    have hz := z.isLt
    have h2 : 2 ^ w = 2 ^ (w - 1) * 2 := by rw [← Nat.pow_succ]; congr 1; omega
    have h1 : 1 % 2 ^ w = 1 := Nat.mod_eq_of_lt (Nat.one_lt_two_pow (by omega))
    rw [BitVec.toNat_ushiftRight, Nat.shiftRight_eq_div_pow, BitVec.msb_eq_decide]
    by_cases hc : 2 ^ (w - 1) ≤ z.toNat
    · simp only [hc, decide_true, if_true, BitVec.toNat_ofNat, h1]
      apply Nat.div_eq_of_lt_le <;> omega
    · simp only [hc, decide_false, BitVec.toNat_ofNat]
      simp only [Bool.false_eq_true, if_false, BitVec.toNat_ofNat, Nat.zero_mod]
      apply Nat.div_eq_of_lt; omega
  rw [h]
  by_cases hc : z.msb
  · simp [hc]
  · simp only [hc, if_false, Bool.false_eq_true]
    rw [BitVec.zero_sub]
    exact BitVec.neg_one_eq_allOnes

theorem msb_or_neg (hw : 0 < w) (x : BitVec w) : (x ||| -x).msb = decide (x ≠ 0#w) := by
  rw [BitVec.msb_or, BitVec.msb_neg]
  by_cases h0 : x = 0#w
  · subst h0; simp
  · by_cases hm : x = BitVec.intMin w
    · subst hm; simp [BitVec.msb_intMin, hw]
    · have h1 : (x != 0#w) = true := by simpa using h0
      have h2 : (x != BitVec.intMin w) = true := by simpa using hm
      rw [h1, h2]; cases x.msb <;> simp [h0]

theorem compEq_spec (hw : 0 < w) (a b : BitVec w) :
    compEq a b = if a = b then BitVec.allOnes w else 0#w := by
  simp only [compEq, sub, one, negU_eq]
  rw [msb_shift_sub_one hw, msb_or_neg hw]
  by_cases h : a = b
  · simp [h]
  · simp [h]

theorem msb_gte (hw : 0 < w) (x y : BitVec w) :
    (x ^^^ ((x ^^^ y) ||| ((x - y) ^^^ y))).msb = decide (x.toNat < y.toNat) := by
  simp only [BitVec.msb_xor, BitVec.msb_or]
  have hx := x.isLt
  have hy := y.isLt
  have h2 : 2 ^ w = 2 ^ (w - 1) * 2 := by rw [← Nat.pow_succ]; congr 1; omega
  have hs : (x - y).toNat = if x.toNat < y.toNat then 2 ^ w - y.toNat + x.toNat else x.toNat - y.toNat := by
    rw [BitVec.toNat_sub]
    split
    · apply Nat.mod_eq_of_lt; omega
    · have : 2 ^ w - y.toNat + x.toNat = (x.toNat - y.toNat) + 2 ^ w := by omega
      rw [this, Nat.add_mod_right]; apply Nat.mod_eq_of_lt; omega
  simp only [BitVec.msb_eq_decide, hs]
  generalize 2 ^ (w - 1) = h at *
  generalize x.toNat = a at *
  generalize y.toNat = b at *
  by_cases c1 : a < b
  · simp only [c1, if_true]
    by_cases c2 : h ≤ a <;> by_cases c3 : h ≤ b <;> by_cases c4 : h ≤ 2 ^ w - b + a <;>
      simp [c2, c3, c4] <;> omega
  · simp only [c1, if_false]
    by_cases c2 : h ≤ a <;> by_cases c3 : h ≤ b <;> by_cases c4 : h ≤ a - b <;>
      simp [c2, c3, c4] <;> omega

theorem compGte_spec (hw : 0 < w) (x y : BitVec w) :
    compGte x y = if y.toNat ≤ x.toNat then BitVec.allOnes w else 0#w := by
  simp only [compGte, sub, one]
  rw [msb_shift_sub_one hw, msb_gte hw]
  by_cases h : x.toNat < y.toNat
  · simp [h, Nat.not_le.mpr h]
  · simp [h, Nat.le_of_not_lt h]

/-! ## chunks -/

theorem length_chunks {α : Type} (n : Nat) (l : List α) :
    (chunks n l).length = (l.length + n - 1) / n := by simp [chunks]

theorem getElem_chunks {α : Type} (n : Nat) (l : List α) (i : Nat) (h : i < (chunks n l).length) :
    (chunks n l)[i] = (l.drop (n * i)).take n := by simp [chunks]

theorem chunks_nil {α : Type} {n : Nat} (hn : 0 < n) : chunks n ([] : List α) = [] := by
  simp only [chunks, List.length_nil, Nat.zero_add]
  rw [Nat.div_eq_of_lt (by omega)]; rfl

/-- Unfolding `chunks` by one piece. -/
theorem chunks_cons {α : Type} {n : Nat} (hn : 0 < n) {l : List α} (hl : l ≠ []) :
    chunks n l = l.take n :: chunks n (l.drop n) := by
  have hlen : 0 < l.length := List.length_pos_iff.mpr hl
  have : (l.length + n - 1) / n = ((l.drop n).length + n - 1) / n + 1 := by
    rw [List.length_drop]
    by_cases h : n ≤ l.length
    · have e : l.length + n - 1 = (l.length - n + n - 1) + n := by omega
      rw [e, Nat.add_div_right _ hn]
    · have e : l.length + n - 1 = (l.length - 1) + n := by omega
      rw [e, Nat.add_div_right _ hn, Nat.div_eq_of_lt (by omega), Nat.div_eq_of_lt (by omega)]
  simp only [chunks]
  rw [this, List.range_succ_eq_map, List.map_cons, List.map_map]
  simp only [Nat.mul_zero, List.drop_zero, List.cons.injEq, true_and]
  apply List.map_congr_left
  intro i _
  simp only [Function.comp, List.drop_drop, Nat.mul_succ, Nat.succ_eq_add_one]
  congr 2; omega

theorem flatten_chunks {α : Type} {n : Nat} (hn : 0 < n) (l : List α) : (chunks n l).flatten = l := by
  induction h : l.length using Nat.strongRecOn generalizing l with
  | ind k ih =>
    by_cases hl : l = []
    · subst hl; rw [chunks_nil hn]; rfl
    · have hlen : 0 < l.length := List.length_pos_iff.mpr hl
      rw [chunks_cons hn hl, List.flatten_cons, ih _ _ _ rfl, List.take_append_drop]
      rw [List.length_drop]; omega

theorem chunks_append {α : Type} {n : Nat} (hn : 0 < n) (a l : List α) (ha : a.length = n) :
    chunks n (a ++ l) = a :: chunks n l := by
  rw [chunks_cons hn (by intro h; simp at h; simp [h.1] at ha; omega)]
  rw [List.take_left' ha, List.drop_left' ha]

theorem chunks_flatMap {α β : Type} {n : Nat} (hn : 0 < n) (f : β → List α) (hf : ∀ b, (f b).length = n)
    (l : List β) : chunks n (l.flatMap f) = l.map f := by
  induction l with
  | nil => rw [List.flatMap_nil, chunks_nil hn]; rfl
  | cons b bs ih => rw [List.flatMap_cons, chunks_append hn _ _ (hf b), ih]; rfl

theorem length_of_mem_chunks {α : Type} {n : Nat} (hn : 0 < n) {l c : List α} (hd : l.length % n = 0)
    (hc : c ∈ chunks n l) : c.length = n := by
  simp only [chunks, List.mem_map, List.mem_range] at hc
  obtain ⟨i, hi, rfl⟩ := hc
  have hdv : n * (l.length / n) = l.length := by
    have := Nat.div_add_mod l.length n; omega
  have : (l.length + n - 1) / n = l.length / n := by
    rw [← hdv]
    rw [Nat.add_sub_assoc (by omega : 1 ≤ n), Nat.mul_add_div hn, Nat.div_eq_of_lt (by omega : n - 1 < n),
      Nat.mul_div_cancel_left _ hn]; omega
  rw [this] at hi
  rw [List.length_take, List.length_drop]
  have : n * (i + 1) ≤ n * (l.length / n) := Nat.mul_le_mul_left _ hi
  rw [hdv, Nat.mul_add] at this
  omega

/-! ## bytes -/

theorem leNat_lt (bs : List U8) : leNat bs < 256 ^ bs.length := by
  induction bs with
  | nil => simp [leNat]
  | cons b bs ih =>
    have hb := b.isLt
    simp only [leNat, List.length_cons, Nat.pow_succ]
    omega

theorem length_leOfWord (x : BitVec w) : (leOfWord x).length = w / 8 := by simp [leOfWord]

theorem length_beOfWord (x : BitVec w) : (beOfWord x).length = w / 8 := by
  simp [beOfWord, length_leOfWord]

/-- Byte `i` of a little-endian number. -/
theorem leNat_byte (bs : List U8) (i : Nat) (h : i < bs.length) :
    leNat bs / 256 ^ i % 256 = bs[i].toNat := by
  induction bs generalizing i with
  | nil => simp at h
  | cons b bs ih =>
    have hb := b.isLt
    cases i with
    | zero => simp only [leNat, Nat.pow_zero, Nat.div_one, List.getElem_cons_zero]; omega
    | succ i =>
      simp only [leNat, List.getElem_cons_succ, Nat.pow_succ]
      rw [Nat.mul_comm (256 ^ i), ← Nat.div_div_eq_div_mul,
        show (b.toNat + 256 * leNat bs) / 256 = leNat bs by omega]
      exact ih i (by simpa using h)

theorem leOfWord_wordOfLe (hw : w % 8 = 0) (c : List U8) (hc : c.length = w / 8) :
    leOfWord (wordOfLe w c) = c := by
  apply List.ext_getElem
  · rw [length_leOfWord, hc]
  · intro i h1 h2
    simp only [leOfWord, List.getElem_map, List.getElem_range, wordOfLe]
    apply BitVec.eq_of_toNat_eq
    rw [BitVec.extractLsb'_toNat, BitVec.toNat_ofNat, Nat.shiftRight_eq_div_pow]
    have hlt := leNat_lt c
    have e : 256 ^ c.length = 2 ^ w := by
      rw [hc, show (256 : Nat) = 2 ^ 8 from rfl, ← Nat.pow_mul]; congr 1; omega
    rw [Nat.mod_eq_of_lt (a := leNat c) (by omega)]
    have := leNat_byte c i h2
    rw [show (256 : Nat) = 2 ^ 8 from rfl, ← Nat.pow_mul] at this
    exact this

/-- Number with given digits. -/
theorem leNat_digits (n k : Nat) :
    leNat ((List.range k).map fun i => BitVec.ofNat 8 (n / 256 ^ i)) = n % 256 ^ k := by
  induction k generalizing n with
  | zero => simp [leNat, Nat.mod_one]
  | succ k ih =>
    rw [List.range_succ_eq_map, List.map_cons, List.map_map]
    have : List.map ((fun i => BitVec.ofNat 8 (n / 256 ^ i)) ∘ Nat.succ) (List.range k)
        = (List.range k).map fun i => BitVec.ofNat 8 ((n / 256) / 256 ^ i) := by
      apply List.map_congr_left
      intro i _
      simp only [Function.comp, Nat.succ_eq_add_one]
      congr 1
      rw [Nat.pow_succ, Nat.mul_comm, Nat.div_div_eq_div_mul]
    rw [this, leNat, ih]
    simp only [Nat.pow_zero, Nat.div_one, BitVec.toNat_ofNat]
    rw [Nat.pow_succ 256 k, Nat.mul_comm (256 ^ k), Nat.mod_mul]

theorem leNat_leOfWord (hw : w % 8 = 0) (x : BitVec w) : leNat (leOfWord x) = x.toNat := by
  have h := leNat_digits x.toNat (w / 8)
  have e : 256 ^ (w / 8) = 2 ^ w := by
    rw [show (256 : Nat) = 2 ^ 8 from rfl, ← Nat.pow_mul]; congr 1; omega
  rw [e, Nat.mod_eq_of_lt x.isLt] at h
  rw [← h]
  congr 1
  apply List.map_congr_left
  intro i _
  apply BitVec.eq_of_toNat_eq
  rw [BitVec.extractLsb'_toNat, BitVec.toNat_ofNat, Nat.shiftRight_eq_div_pow,
    show (256 : Nat) = 2 ^ 8 from rfl, ← Nat.pow_mul]

theorem wordOfLe_leOfWord (hw : w % 8 = 0) (x : BitVec w) : wordOfLe w (leOfWord x) = x := by
  simp [wordOfLe, leNat_leOfWord hw]

theorem wordOfBe_beOfWord (hw : w % 8 = 0) (x : BitVec w) : wordOfBe w (beOfWord x) = x := by
  simp [wordOfBe, beOfWord, leNat_leOfWord hw]

theorem beOfWord_wordOfBe (hw : w % 8 = 0) (c : List U8) (hc : c.length = w / 8) :
    beOfWord (wordOfBe w c) = c := by
  have := leOfWord_wordOfLe hw c.reverse (by simp [hc])
  simp only [wordOfLe] at this
  simp only [beOfWord, wordOfBe, this, List.reverse_reverse]

theorem map_id_of_forall {α : Type} {l : List α} {f : α → α} (h : ∀ x ∈ l, f x = x) : l.map f = l := by
  rw [List.map_congr_left h, List.map_id']

end Hacspec.SecretInt
