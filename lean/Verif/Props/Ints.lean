import Verif.Lemmas.ModArith
import Verif.Lemmas.EuclidChecked

/-!
# Properties C01–C12: secret and public machine integers

The statements refer to the model functions only as "the API" and are otherwise phrased with the
standard meaning of words: `toNat` (unsigned value), `toInt` (two's complement value), `getLsbD` (bits).
-/

namespace Hacspec.Props

open SecretInt MachineInt

variable {w : Nat}

/-! ## C01 comparison masks of secret integers -/

/-- C01: `comp_eq`. -/
theorem C01_comp_eq (hw : 0 < w) (x y : BitVec w) :
    compEq x y = if x.toNat = y.toNat then BitVec.allOnes w else 0#w := by
  rw [compEq_spec hw]; simp [BitVec.toNat_eq]

/-- C01: `comp_ne`. -/
theorem C01_comp_ne (hw : 0 < w) (x y : BitVec w) :
    compNe x y = if x.toNat ≠ y.toNat then BitVec.allOnes w else 0#w := by
  rw [compNe, C01_comp_eq hw]; by_cases h : x.toNat = y.toNat <;> simp [h]

/-- C01: `comp_gte`. -/
theorem C01_comp_gte (hw : 0 < w) (x y : BitVec w) :
    compGte x y = if x.toNat ≥ y.toNat then BitVec.allOnes w else 0#w := compGte_spec hw x y

/-- C01: `comp_gt`. -/
theorem C01_comp_gt (hw : 0 < w) (x y : BitVec w) :
    compGt x y = if x.toNat > y.toNat then BitVec.allOnes w else 0#w := by
  rw [compGt, C01_comp_gte hw, C01_comp_eq hw]
  rcases Nat.lt_trichotomy x.toNat y.toNat with h | h | h
  · simp [show ¬ x.toNat = y.toNat by omega, show ¬ y.toNat ≤ x.toNat by omega,
      show ¬ y.toNat < x.toNat by omega]
  · simp [h]
  · simp [show ¬ x.toNat = y.toNat by omega, show y.toNat ≤ x.toNat by omega, h]

/-- C01: `comp_lte`. -/
theorem C01_comp_lte (hw : 0 < w) (x y : BitVec w) :
    compLte x y = if x.toNat ≤ y.toNat then BitVec.allOnes w else 0#w := by
  rw [compLte, C01_comp_gt hw]
  by_cases h : x.toNat ≤ y.toNat
  · simp [h, Nat.not_lt.mpr h]
  · simp [h, Nat.lt_of_not_le h]

/-- C01: `comp_lt`. -/
theorem C01_comp_lt (hw : 0 < w) (x y : BitVec w) :
    compLt x y = if x.toNat < y.toNat then BitVec.allOnes w else 0#w := by
  rw [compLt, C01_comp_gte hw]
  by_cases h : x.toNat < y.toNat
  · simp [h, Nat.not_le.mpr h]
  · simp [h, Nat.le_of_not_lt h]

example : compGte (0x80000000#32) (0x7fffffff#32) = BitVec.allOnes 32 :=
  C01_comp_gte (by decide) _ _
example : compLt (0xff#8) (0x01#8) = 0#8 := C01_comp_lt (by decide) _ _

/-! ## C02 arithmetic of secret integers -/

/-- `v` is the two's complement representative of the integer `z` for width `w`. -/
def IsTwosComplement (w : Nat) (v z : Int) : Prop :=
  -(2 ^ (w - 1) : Int) ≤ v ∧ v < 2 ^ (w - 1) ∧ (2 ^ w : Int) ∣ v - z

/-- C02: unsigned `+`, `-`, `*` are the operations of `ℤ / 2^w`. -/
theorem C02_unsigned_ring (x y : BitVec w) :
    ((SecretInt.add x y).toNat : Int) = ((x.toNat : Int) + y.toNat) % 2 ^ w ∧
    ((SecretInt.sub x y).toNat : Int) = ((x.toNat : Int) - y.toNat) % 2 ^ w ∧
    ((SecretInt.mul x y).toNat : Int) = ((x.toNat : Int) * y.toNat) % 2 ^ w := by
  refine ⟨by simp [SecretInt.add], ?_, by simp [SecretInt.mul]⟩
  have hy := y.isLt
  simp only [SecretInt.sub, BitVec.toNat_sub]
  push_cast [Nat.le_of_lt hy]
  have : (2 : Int) ^ w - (y.toNat : Int) + x.toNat = ((x.toNat : Int) - y.toNat) + 2 ^ w := by ring
  rw [this, Int.add_emod_right]

theorem isTwos_bmod (hw : 0 < w) (z : Int) : IsTwosComplement w (z.bmod (2 ^ w)) z := by
  have h2 : 2 ^ w = 2 ^ (w - 1) * 2 := by rw [← Nat.pow_succ]; congr 1; omega
  have hpos : 0 < 2 ^ (w - 1) := Nat.two_pow_pos _
  have h3 := Int.le_bmod (x := z) (m := 2 ^ w) (by omega)
  have h4 := Int.bmod_lt (x := z) (m := 2 ^ w) (by omega)
  have h5 : z.bmod (2 ^ w) % ((2 ^ w : Nat) : Int) = z % ((2 ^ w : Nat) : Int) := Int.bmod_emod
  refine ⟨?_, ?_, ?_⟩
  · rw [pow_cast]; omega
  · rw [pow_cast]; omega
  · rw [pow_cast]
    exact Int.dvd_of_emod_eq_zero (Int.emod_eq_emod_iff_emod_sub_eq_zero.mp h5)

/-- C02: signed `+`, `-`, `*` return the two's complement representative of the exact result. -/
theorem C02_signed_ring (hw : 0 < w) (x y : BitVec w) :
    IsTwosComplement w (SecretInt.add x y).toInt (x.toInt + y.toInt) ∧
    IsTwosComplement w (SecretInt.sub x y).toInt (x.toInt - y.toInt) ∧
    IsTwosComplement w (SecretInt.mul x y).toInt (x.toInt * y.toInt) := by
  simp only [SecretInt.add, SecretInt.sub, SecretInt.mul, BitVec.toInt_add, BitVec.toInt_sub,
    BitVec.toInt_mul]
  exact ⟨isTwos_bmod hw _, isTwos_bmod hw _, isTwos_bmod hw _⟩

/-- C02: unsigned negation is the additive inverse. -/
theorem C02_neg_unsigned (x : BitVec w) :
    SecretInt.add x (negU x) = 0#w ∧ ((negU x).toNat : Int) = (-(x.toNat : Int)) % 2 ^ w := by
  refine ⟨by simp [SecretInt.add, negU_eq, BitVec.add_right_neg], ?_⟩
  rw [negU_eq]
  have h := (C02_unsigned_ring 0#w x).2.1
  simpa [SecretInt.sub] using h

/-- C02: signed negation is exact and panics exactly on the minimum value. -/
theorem C02_neg_signed (hw : 0 < w) (x : BitVec w) :
    (x.toInt ≠ -(2 ^ (w - 1) : Int) → ∃ y, negS x = .ok y ∧ y.toInt = -x.toInt) ∧
    (x.toInt = -(2 ^ (w - 1) : Int) → negS x = panic) := by
  have h2 : 2 ^ w = 2 ^ (w - 1) * 2 := by rw [← Nat.pow_succ]; congr 1; omega
  have hlo := BitVec.le_two_mul_toInt (x := x)
  have hhi := BitVec.two_mul_toInt_lt (x := x)
  rw [pow_cast] at hlo hhi
  rw [pow_cast]
  constructor
  · intro h
    have hf : fitsS w (-x.toInt) := by simp only [fitsS, pow_cast]; omega
    refine ⟨-x, by simp [negS, hf], ?_⟩
    rw [BitVec.toInt_neg, Int.bmod_eq_of_le] <;> omega
  · intro h
    have hf : ¬ fitsS w (-x.toInt) := by simp only [fitsS, pow_cast]; omega
    simp [negS, hf]

/-- C02: unsigned checked operations return the exact result, or panic exactly when it does not fit. -/
theorem C02_checked_unsigned (x y : BitVec w) :
    (x.toNat + y.toNat < 2 ^ w → ∃ r, checkedAddU x y = .ok r ∧ r.toNat = x.toNat + y.toNat) ∧
    (2 ^ w ≤ x.toNat + y.toNat → checkedAddU x y = panic) ∧
    (y.toNat ≤ x.toNat → ∃ r, checkedSubU x y = .ok r ∧ r.toNat = x.toNat - y.toNat) ∧
    (x.toNat < y.toNat → checkedSubU x y = panic) ∧
    (x.toNat * y.toNat < 2 ^ w → ∃ r, checkedMulU x y = .ok r ∧ r.toNat = x.toNat * y.toNat) ∧
    (2 ^ w ≤ x.toNat * y.toNat → checkedMulU x y = panic) := by
  refine ⟨fun h => ⟨x + y, by simp [checkedAddU, h], ?_⟩, fun h => ?_,
    fun h => ⟨x - y, by simp [checkedSubU, h], BitVec.toNat_sub_of_le h⟩, fun h => ?_,
    fun h => ⟨x * y, by simp [checkedMulU, h], ?_⟩, fun h => ?_⟩
  · rw [BitVec.toNat_add, Nat.mod_eq_of_lt h]
  · simp [checkedAddU, Nat.not_lt.mpr h]
  · simp [checkedSubU, Nat.not_le.mpr h]
  · rw [BitVec.toNat_mul, Nat.mod_eq_of_lt h]
  · simp [checkedMulU, Nat.not_lt.mpr h]

theorem toInt_eq_of_fits (hw : 0 < w) {z : Int} (h : -(2 ^ (w - 1) : Int) ≤ z ∧ z < 2 ^ (w - 1)) :
    z.bmod (2 ^ w) = z := by
  have h2 : 2 ^ w = 2 ^ (w - 1) * 2 := by rw [← Nat.pow_succ]; congr 1; omega
  rw [pow_cast] at h
  rw [Int.bmod_eq_of_le] <;> omega

/-- C02: signed checked operations return the exact result, or panic exactly when it does not fit. -/
theorem C02_checked_signed (hw : 0 < w) (x y : BitVec w) :
    (∀ z, z = x.toInt + y.toInt →
      (-(2 ^ (w - 1) : Int) ≤ z ∧ z < 2 ^ (w - 1) → ∃ r, checkedAddS x y = .ok r ∧ r.toInt = z) ∧
      (¬ (-(2 ^ (w - 1) : Int) ≤ z ∧ z < 2 ^ (w - 1)) → checkedAddS x y = panic)) ∧
    (∀ z, z = x.toInt - y.toInt →
      (-(2 ^ (w - 1) : Int) ≤ z ∧ z < 2 ^ (w - 1) → ∃ r, checkedSubS x y = .ok r ∧ r.toInt = z) ∧
      (¬ (-(2 ^ (w - 1) : Int) ≤ z ∧ z < 2 ^ (w - 1)) → checkedSubS x y = panic)) ∧
    (∀ z, z = x.toInt * y.toInt →
      (-(2 ^ (w - 1) : Int) ≤ z ∧ z < 2 ^ (w - 1) → ∃ r, checkedMulS x y = .ok r ∧ r.toInt = z) ∧
      (¬ (-(2 ^ (w - 1) : Int) ≤ z ∧ z < 2 ^ (w - 1)) → checkedMulS x y = panic)) := by
  refine ⟨?_, ?_, ?_⟩ <;> intro z hz <;> subst hz <;> refine ⟨fun h => ?_, fun h => ?_⟩
  · exact ⟨x + y, by simp [checkedAddS, fitsS, h], by rw [BitVec.toInt_add, toInt_eq_of_fits hw h]⟩
  · simp only [checkedAddS, fitsS, h, if_false]
  · exact ⟨x - y, by simp [checkedSubS, fitsS, h], by rw [BitVec.toInt_sub, toInt_eq_of_fits hw h]⟩
  · simp only [checkedSubS, fitsS, h, if_false]
  · exact ⟨x * y, by simp [checkedMulS, fitsS, h], by rw [BitVec.toInt_mul, toInt_eq_of_fits hw h]⟩
  · simp only [checkedMulS, fitsS, h, if_false]

example : checkedAddU (200#8) (56#8) = panic := (C02_checked_unsigned (200#8) (56#8)).2.1 (by decide)
example : negS (0x80#8) = panic := (C02_neg_signed (by decide) (0x80#8)).2 (by decide)
example : IsTwosComplement 8 (SecretInt.mul (100#8) (3#8)).toInt (300) :=
  (C02_signed_ring (by decide) (100#8) (3#8)).2.2

/-! ## C03 byte serialisation -/

/-- Base-256 value of a byte string, least significant byte first (specification). -/
def base256 : List U8 → Nat
  | [] => 0
  | b :: bs => b.toNat + 256 * base256 bs

theorem leNat_eq_base256 (bs : List U8) : leNat bs = base256 bs := by
  induction bs with
  | nil => rfl
  | cons b bs ih => simp [leNat, base256, ih]

/-- C03: `from_le_bytes ∘ to_le_bytes` and `from_be_bytes ∘ to_be_bytes` are the identity. -/
theorem C03_decode_encode (hw : 0 < w) (h8 : w % 8 = 0) (xs : List (BitVec w)) :
    fromLeBytes w (toLeBytes xs) = .ok xs ∧ fromBeBytes w (toBeBytes xs) = .ok xs := by
  have h0 : 0 < w / 8 := by omega
  have hl : ∀ f : BitVec w → List U8, (∀ x, (f x).length = w / 8) →
      (xs.flatMap f).length % (w / 8) = 0 := by
    intro f hf
    rw [List.length_flatMap]
    have : (xs.map fun x => (f x).length) = xs.map fun _ => w / 8 := by
      apply List.map_congr_left; intro a _; exact hf a
    rw [this]
    simp
  constructor
  · rw [fromLeBytes, require_true (show (toLeBytes xs).length % (w / 8) = 0 from hl leOfWord length_leOfWord), bind_ok, toLeBytes,
      chunks_flatMap h0 _ length_leOfWord, List.map_map,
      map_id_of_forall (f := wordOfLe w ∘ leOfWord) (fun x _ => wordOfLe_leOfWord h8 x)]
  · rw [fromBeBytes, require_true (show (toBeBytes xs).length % (w / 8) = 0 from hl beOfWord length_beOfWord), bind_ok, toBeBytes,
      chunks_flatMap h0 _ length_beOfWord, List.map_map,
      map_id_of_forall (f := wordOfBe w ∘ beOfWord) (fun x _ => wordOfBe_beOfWord h8 x)]

/-- C03: decoding succeeds exactly on multiples of the word size, and then encoding gives the bytes
back. -/
theorem C03_encode_decode (hw : 0 < w) (h8 : w % 8 = 0) (bs : List U8) :
    (bs.length % (w / 8) = 0 →
      (∃ xs, fromLeBytes w bs = .ok xs ∧ xs.length = bs.length / (w / 8) ∧ toLeBytes xs = bs) ∧
      (∃ xs, fromBeBytes w bs = .ok xs ∧ xs.length = bs.length / (w / 8) ∧ toBeBytes xs = bs)) ∧
    (bs.length % (w / 8) ≠ 0 → fromLeBytes w bs = panic ∧ fromBeBytes w bs = panic) := by
  have h0 : 0 < w / 8 := by omega
  constructor
  · intro hd
    have hlen : (chunks (w / 8) bs).length = bs.length / (w / 8) := by
      rw [length_chunks]
      have := Nat.div_add_mod bs.length (w / 8)
      rw [hd] at this
      conv => lhs; rw [← this]
      rw [Nat.add_zero, Nat.add_sub_assoc (by omega : 1 ≤ w / 8), Nat.mul_add_div h0,
        Nat.div_eq_of_lt (by omega : w / 8 - 1 < w / 8), Nat.add_zero]
    constructor
    · refine ⟨(chunks (w / 8) bs).map (wordOfLe w), by simp only [fromLeBytes, require_true hd, bind_ok], by simp [hlen], ?_⟩
      simp only [toLeBytes, List.flatMap_def, List.map_map]
      rw [map_id_of_forall, flatten_chunks h0]
      intro c hc
      exact leOfWord_wordOfLe h8 c (length_of_mem_chunks h0 hd hc)
    · refine ⟨(chunks (w / 8) bs).map (wordOfBe w), by simp only [fromBeBytes, require_true hd, bind_ok], by simp [hlen], ?_⟩
      simp only [toBeBytes, List.flatMap_def, List.map_map]
      rw [map_id_of_forall, flatten_chunks h0]
      intro c hc
      exact beOfWord_wordOfBe h8 c (length_of_mem_chunks h0 hd hc)
  · intro hd
    simp [fromLeBytes, fromBeBytes, hd]

/-- C03: words are positional: the `i`-th decoded word is the base-256 value of the `i`-th group of
bytes (little endian), or of the reversed group (big endian). -/
theorem C03_positional (h8 : w % 8 = 0) (hw : 0 < w) (bs : List U8) (hd : bs.length % (w / 8) = 0)
    (i : Nat) (hi : i < bs.length / (w / 8)) :
    (∃ xs x, fromLeBytes w bs = .ok xs ∧ xs[i]? = some x ∧
      x.toNat = base256 ((bs.drop (w / 8 * i)).take (w / 8))) ∧
    (∃ xs x, fromBeBytes w bs = .ok xs ∧ xs[i]? = some x ∧
      x.toNat = base256 ((bs.drop (w / 8 * i)).take (w / 8)).reverse) := by
  have h0 : 0 < w / 8 := by omega
  have hlen : (chunks (w / 8) bs).length = bs.length / (w / 8) := by
    obtain ⟨xs, h1, h2, _⟩ := ((C03_encode_decode hw h8 bs).1 hd).1
    simp only [fromLeBytes, require_true hd, bind_ok, Except.ok.injEq] at h1
    rw [← h2, ← h1, List.length_map]
  have hm : (bs.drop (w / 8 * i)).take (w / 8) ∈ chunks (w / 8) bs := by
    rw [← getElem_chunks (w / 8) bs i (by omega)]; exact List.getElem_mem _
  have hcl := length_of_mem_chunks h0 hd hm
  have hpw : 256 ^ (w / 8) = 2 ^ w := by
    rw [show (256 : Nat) = 2 ^ 8 from rfl, ← Nat.pow_mul]; congr 1; omega
  constructor
  · refine ⟨(chunks (w / 8) bs).map (wordOfLe w), _, by simp only [fromLeBytes, require_true hd, bind_ok],
      by rw [List.getElem?_map, List.getElem?_eq_getElem (by omega), Option.map_some,
          getElem_chunks], ?_⟩
    rw [wordOfLe, BitVec.toNat_ofNat, leNat_eq_base256, Nat.mod_eq_of_lt]
    have := leNat_lt ((bs.drop (w / 8 * i)).take (w / 8))
    rw [hcl, hpw] at this
    rw [← leNat_eq_base256]; exact this
  · refine ⟨(chunks (w / 8) bs).map (wordOfBe w), _, by simp only [fromBeBytes, require_true hd, bind_ok],
      by rw [List.getElem?_map, List.getElem?_eq_getElem (by omega), Option.map_some,
          getElem_chunks], ?_⟩
    rw [wordOfBe, BitVec.toNat_ofNat, leNat_eq_base256, Nat.mod_eq_of_lt]
    have := leNat_lt ((bs.drop (w / 8 * i)).take (w / 8)).reverse
    rw [List.length_reverse, hcl, hpw] at this
    rw [← leNat_eq_base256]; exact this

example : fromBeBytes 32 [0x01#8, 0x02#8, 0x03#8, 0x04#8] = .ok [0x01020304#32] := by decide
example : fromLeBytes 32 (toLeBytes [0xdeadbeef#32, 7#32]) = .ok [0xdeadbeef#32, 7#32] :=
  (C03_decode_encode (by decide) (by decide) _).1

/-! ## C04 rotations -/

/-- C04: bit `i` goes to bit `(i + n) mod w`. -/
theorem C04_rotl_bits (x : BitVec w) (n i : Nat) (hi : i < w) :
    (rotl x n).getLsbD ((i + n) % w) = x.getLsbD i := by
  have hw : 0 < w := by omega
  have hn : n % w < w := Nat.mod_lt _ hw
  have h2 : (i + n) % w = if i + n % w < w then i + n % w else i + n % w - w := by
    rw [Nat.add_mod, Nat.mod_eq_of_lt hi]
    split
    · exact Nat.mod_eq_of_lt ‹_›
    · rw [Nat.mod_eq_sub_mod (by omega), Nat.mod_eq_of_lt (by omega)]
  rw [rotl, BitVec.getLsbD_rotateLeft, h2]
  split
  · rename_i h
    simp [h]
  · rename_i h
    rw [decide_eq_true (by omega)]
    simp only [cond_true]
    congr 1; omega

/-- C04: bit `(i + n) mod w` goes to bit `i`. -/
theorem C04_rotr_bits (x : BitVec w) (n i : Nat) (hi : i < w) :
    (rotr x n).getLsbD i = x.getLsbD ((i + n) % w) := by
  have hw : 0 < w := by omega
  have hn : n % w < w := Nat.mod_lt _ hw
  have h2 : (i + n) % w = if i + n % w < w then i + n % w else i + n % w - w := by
    rw [Nat.add_mod, Nat.mod_eq_of_lt hi]
    split
    · exact Nat.mod_eq_of_lt ‹_›
    · rw [Nat.mod_eq_sub_mod (by omega), Nat.mod_eq_of_lt (by omega)]
  rw [rotr, BitVec.getLsbD_rotateRight, h2]
  split
  · rename_i h
    rw [decide_eq_true (by omega)]; simp only [cond_true]; congr 1; omega
  · rename_i h
    rw [decide_eq_false (by omega)]; simp only [hi, decide_true, Bool.true_and, cond_false]
    congr 1; omega

/-- C04: the two rotations are mutually inverse for every amount. -/
theorem C04_inverse (x : BitVec w) (n : Nat) : rotr (rotl x n) n = x ∧ rotl (rotr x n) n = x := by
  constructor
  · apply BitVec.eq_of_getLsbD_eq
    intro i hi
    rw [C04_rotr_bits _ _ _ hi, C04_rotl_bits _ _ _ hi]
  · apply BitVec.eq_of_getLsbD_eq
    intro j hj
    have hn : n % w < w := Nat.mod_lt _ (by omega)
    -- `j = (i + n) mod w` for `i = (j + (w - n mod w)) mod w`
    have hi : (j + (w - n % w)) % w < w := Nat.mod_lt _ (by omega)
    have e : ((j + (w - n % w)) % w + n) % w = j := by
      rw [Nat.add_mod, Nat.mod_mod, ← Nat.add_mod]
      have : j + (w - n % w) + n = j + w * (n / w + 1) := by
        have h1 := Nat.div_add_mod n w
        have h2 : w * (n / w + 1) = w * (n / w) + w := Nat.mul_succ _ _
        omega
      rw [this, Nat.add_mul_mod_self_left, Nat.mod_eq_of_lt hj]
    have h1 := C04_rotl_bits (rotr x n) n _ hi
    rw [e] at h1
    rw [h1, C04_rotr_bits _ _ _ hi, e]

theorem rotCompl_eq {k n : Nat} (hk : k ≤ 32) (hn : n < 2 ^ k) : rotCompl (2 ^ k) n = (2 ^ k - n) % 2 ^ k := by
  rw [rotCompl, Nat.and_two_pow_sub_one_eq_mod]
  have h32 : 2 ^ k ∣ 2 ^ 32 := Nat.pow_dvd_pow 2 hk
  rw [Nat.mod_mod_of_dvd _ h32]
  have hle : 2 ^ k ≤ 2 ^ 32 := Nat.pow_le_pow_right (by omega) hk
  obtain ⟨c, hc⟩ := h32
  have hcpos : 1 ≤ c := by
    rcases Nat.eq_zero_or_pos c with h | h
    · subst h; simp at hc
    · exact h
  have : 2 ^ 32 - n = (2 ^ k - n) + 2 ^ k * (c - 1) := by
    rw [Nat.mul_sub, Nat.mul_one, ← hc]; omega
  rw [this, Nat.add_mul_mod_self_left]

/-- C04: the trait's `rotate_left`/`rotate_right` on unsigned integers (public or secret, power-of-two
width) agree with the native rotations for `n < w`, and panic otherwise. -/
theorem C04_trait_rotate {k : Nat} (hk : k ≤ 32) (O : IntOps (2 ^ k)) (hO : IsUnsigned O)
    (x : BitVec (2 ^ k)) (n : Nat) :
    (n < 2 ^ k → MachineInt.rotateLeft O x n = .ok (rotl x n) ∧
                 MachineInt.rotateRight O x n = .ok (rotr x n)) ∧
    (2 ^ k ≤ n → MachineInt.rotateLeft O x n = panic ∧ MachineInt.rotateRight O x n = panic) := by
  constructor
  · intro hn
    have hc : rotCompl (2 ^ k) n < 2 ^ k := by
      rw [rotCompl_eq hk hn]; exact Nat.mod_lt _ (Nat.two_pow_pos k)
    have hw : 0 < 2 ^ k := Nat.two_pow_pos k
    have hcases : rotCompl (2 ^ k) n = if n = 0 then 0 else 2 ^ k - n := by
      rw [rotCompl_eq hk hn]
      split
      · rename_i h; subst h; simp
      · exact Nat.mod_eq_of_lt (by omega)
    constructor
    · rw [MachineInt.rotateLeft, require_true hn]
      simp only [bind_ok, shl, hn, if_true, hO.shr, shrU, hc]
      congr 1
      apply BitVec.eq_of_getLsbD_eq
      intro i hi
      rw [BitVec.getLsbD_or, BitVec.getLsbD_shiftLeft, BitVec.getLsbD_ushiftRight, rotl,
        BitVec.getLsbD_rotateLeft, Nat.mod_eq_of_lt hn, hcases]
      by_cases h0 : n = 0
      · subst h0; simp [hi]
      · simp only [h0, if_false]
        by_cases hin : i < n
        · simp [hin, hi]
        · have : x.getLsbD (2 ^ k - n + i) = false := BitVec.getLsbD_of_ge _ _ (by omega)
          simp [hin, hi, this]
    · rw [MachineInt.rotateRight, require_true hn]
      simp only [bind_ok, shl, hc, if_true, hO.shr, shrU, hn]
      congr 1
      apply BitVec.eq_of_getLsbD_eq
      intro i hi
      rw [BitVec.getLsbD_or, BitVec.getLsbD_shiftLeft, BitVec.getLsbD_ushiftRight, rotr,
        BitVec.getLsbD_rotateRight, Nat.mod_eq_of_lt hn, hcases]
      by_cases h0 : n = 0
      · subst h0; simp [hi]
      · simp only [h0, if_false]
        by_cases hin : i < 2 ^ k - n
        · simp [hin, hi]
        · have : x.getLsbD (n + i) = false := BitVec.getLsbD_of_ge _ _ (by omega)
          simp [hin, hi, this]
  · intro hn
    simp [MachineInt.rotateLeft, MachineInt.rotateRight, Nat.not_lt.mpr hn]

/-- C04, disagreement: on signed integers the trait's rotation is not a rotation (the right shift is
arithmetic). -/
theorem C04_trait_rotate_signed_refuted :
    ∃ x : BitVec 8, ∃ n, n < 8 ∧ MachineInt.rotateLeft pubS x n ≠ .ok (rotl x n) :=
  ⟨0x80#8, 1, by decide, by decide⟩

example : MachineInt.rotateLeft (pubU : IntOps (2 ^ 5)) (0x80000001#32) 4 = .ok (0x00000018#32) :=
  ((C04_trait_rotate (by decide) pubU (Or.inl rfl) _ 4).1 (by decide)).1

/-! ## C05 casts -/

/-- C05: unsigned casts. -/
theorem C05_castU (v : Nat) (x : BitVec w) :
    (castU v x).toNat = x.toNat % 2 ^ v ∧ (w ≤ v → (castU v x).toNat = x.toNat) := by
  refine ⟨by simp [castU], fun h => ?_⟩
  simp only [castU, BitVec.toNat_setWidth]
  exact Nat.mod_eq_of_lt (Nat.lt_of_lt_of_le x.isLt (Nat.pow_le_pow_right (by omega) h))

/-- C05: signed casts: widening preserves the value, narrowing keeps it modulo `2^v`. -/
theorem C05_castS (v : Nat) (x : BitVec w) :
    (w ≤ v → (castS v x).toInt = x.toInt) ∧
    (v ≤ w → (2 ^ v : Int) ∣ (castS v x).toInt - x.toInt) := by
  constructor
  · intro h; simp [castS, BitVec.toInt_signExtend_of_le h]
  · intro h
    simp only [castS]
    rw [BitVec.toInt_signExtend, Nat.min_eq_left h, pow_cast]
    have h5 : x.toInt.bmod (2 ^ v) % ((2 ^ v : Nat) : Int) = x.toInt % ((2 ^ v : Nat) : Int) :=
      Int.bmod_emod
    exact Int.dvd_of_emod_eq_zero (Int.emod_eq_emod_iff_emod_sub_eq_zero.mp h5)

/-- C05: signed/unsigned casts of the same width are mutually inverse and congruent modulo `2^w`;
`classify`/`declassify` keep the value. -/
theorem C05_castSign (x : BitVec w) :
    castSign (castSign x) = x ∧ (2 ^ w : Int) ∣ (castSign x).toInt - x.toNat ∧
    declassify (classify x) = x ∧ (classify x).toNat = x.toNat := by
  refine ⟨rfl, ?_, rfl, rfl⟩
  simp only [castSign]
  rw [BitVec.toInt_eq_toNat_bmod, pow_cast]
  have h5 : (x.toNat : Int).bmod (2 ^ w) % ((2 ^ w : Nat) : Int) = (x.toNat : Int) % ((2 ^ w : Nat) : Int) :=
    Int.bmod_emod
  exact Int.dvd_of_emod_eq_zero (Int.emod_eq_emod_iff_emod_sub_eq_zero.mp h5)

example : (castU 8 (0x1234#16)).toNat = 0x34 := (C05_castU 8 (0x1234#16)).1
example : (castS 32 (0xff#8)).toInt = -1 := (C05_castS 32 (0xff#8)).1 (by decide)

/-! ## C06 single-bit access -/

/-- The four integer families of the crate. -/
def IsFamily (O : IntOps w) : Prop := O = pubU ∨ O = pubS ∨ O = secU ∨ O = secS

theorem IsFamily.shr {O : IntOps w} (h : IsFamily O) : O.shr = shrU ∨ O.shr = shrS := by
  rcases h with h | h | h | h <;> subst h <;> simp [pubU, pubS, secU, secS]

/-- C06: `get_bit`. -/
theorem C06_get_bit (O : IntOps w) (hO : IsFamily O) (x : BitVec w) (i : Nat) :
    (i < w → getBit O x i = .ok (if x.getLsbD i then 1#w else 0#w)) ∧
    (w ≤ i → getBit O x i = panic) :=
  ⟨getBit_eq O hO.shr x i, getBit_panic O hO.shr x i⟩

/-- C06: `set_bit` changes bit `i` to `b` and no other bit; panics exactly on a bad index or a `b` that
is not a bit. -/
theorem C06_set_bit (hw : w ≤ 128) (x b : BitVec w) (i : Nat) :
    (i < w → (b = 1#w ∨ b = 0#w) → ∃ y, setBit x b i = .ok y ∧
      ∀ k, k < w → y.getLsbD k = if k = i then decide (b = 1#w) else x.getLsbD k) ∧
    (w ≤ i ∨ ¬ (b = 1#w ∨ b = 0#w) → setBit x b i = panic) :=
  ⟨fun hi hb => setBit_eq hw x b i hi hb, setBit_panic hw x b i⟩

/-- C06: `set` copies bit `yi` of `y` into bit `pos` of `x` and changes nothing else. -/
theorem C06_set (hw : w ≤ 128) (O : IntOps w) (hO : IsFamily O) (x y : BitVec w) (pos yi : Nat) :
    (pos < w → yi < w → ∃ z, MachineInt.set O x pos y yi = .ok z ∧
      ∀ k, k < w → z.getLsbD k = if k = pos then y.getLsbD yi else x.getLsbD k) ∧
    (w ≤ pos ∨ w ≤ yi → MachineInt.set O x pos y yi = panic) := by
  constructor
  · intro hp hy
    have hb : (if y.getLsbD yi then 1#w else 0#w) = 1#w ∨ (if y.getLsbD yi then 1#w else 0#w) = 0#w := by
      cases y.getLsbD yi <;> simp
    obtain ⟨z, hz, hzb⟩ := setBit_eq hw x (if y.getLsbD yi then 1#w else 0#w) pos hp hb
    refine ⟨z, by simp [MachineInt.set, getBit_eq O hO.shr y yi hy, hz], ?_⟩
    intro k hk
    rw [hzb k hk]
    have hne := one_ne_zero (w := w) (by omega)
    cases y.getLsbD yi
    · have : ¬ (0#w = 1#w) := fun e => hne e.symm
      simp [this]
    · simp
  · intro h
    by_cases hy : yi < w
    · have hp : w ≤ pos := by omega
      simp only [MachineInt.set, getBit_eq O hO.shr y yi hy, bind_ok]
      exact setBit_panic hw _ _ _ (Or.inl hp)
    · simp [MachineInt.set, getBit_panic O hO.shr y yi (by omega)]

example : setBit (0xf0#8) (1#8) 0 = .ok (0xf1#8) := by decide
example : ∃ z, MachineInt.set pubS (0x00#8) 7 (0x02#8) 1 = .ok z ∧
    ∀ k, k < 8 → z.getLsbD k = if k = 7 then (0x02#8).getLsbD 1 else (0x00#8).getLsbD k :=
  (C06_set (by decide) pubS (by simp [IsFamily]) _ _ _ _).1 (by decide) (by decide)

/-! ## C07 selection helpers -/

/-- C07: all selection helpers, for the two legal condition words. -/
theorem C07_select (x y : BitVec w) :
    cswap x y (BitVec.allOnes w) = (y, x) ∧ cswap x y 0#w = (x, y) ∧
    cswapBit x y 1#w = (y, x) ∧ cswapBit x y 0#w = (x, y) ∧
    cadd x y (BitVec.allOnes w) = x + y ∧ cadd x y 0#w = x ∧
    csub x y (BitVec.allOnes w) = x - y ∧ csub x y 0#w = x ∧
    cmul x y (BitVec.allOnes w) = x * y ∧ cmul x y 0#w = x := by
  refine ⟨cswap_ones x y, cswap_zero x y, ?_, ?_, ?_, ?_, ?_, ?_, ?_, ?_⟩ <;>
    simp only [cswapBit, cadd, csub, cmul, cswap_ones, cswap_zero, BitVec.sub_zero]
  have : 0#w - 1#w = BitVec.allOnes w := by
    rw [BitVec.zero_sub]; exact BitVec.neg_one_eq_allOnes
  rw [this, cswap_ones]

/-- C07: `cset_bit` sets bit `i` to `b` when the condition is all ones and is the identity when it is 0. -/
theorem C07_cset_bit (hw : w ≤ 128) (x b : BitVec w) (i : Nat) (hi : i < w) (hb : b = 1#w ∨ b = 0#w) :
    csetBit x b i 0#w = .ok x ∧
    ∃ y, csetBit x b i (BitVec.allOnes w) = .ok y ∧
      ∀ k, k < w → y.getLsbD k = if k = i then decide (b = 1#w) else x.getLsbD k := by
  obtain ⟨y, hy, hk⟩ := setBit_eq hw x b i hi hb
  exact ⟨by simp [csetBit, hy, cswap_zero], y, by simp [csetBit, hy, cswap_ones], hk⟩

example : csub (5#8) (7#8) (BitVec.allOnes 8) = 254#8 := (C07_select (5#8) (7#8)).2.2.2.2.2.2.1
example : csetBit (0#8) (1#8) 3 0#8 = .ok 0#8 := (C07_cset_bit (by decide) _ _ 3 (by decide) (by simp)).1

/-! ## C08 constant-time division -/

/-- C08: `ct_div` is Euclidean division for every non-zero divisor. -/
theorem C08_ct_div (hw : w ≤ 128) (hw1 : 1 < w) (O : IntOps w) (hO : IsUnsigned O) (a d : BitVec w)
    (hd : d.toNat ≠ 0) :
    ∃ q r, ctDiv O a d = .ok (q, r) ∧ a.toNat = q.toNat * d.toNat + r.toNat ∧ r.toNat < d.toNat := by
  obtain ⟨q, r, h, Q, h1, h2, h3, _, _⟩ := ctDiv_inv hw hw1 hO a d
  refine ⟨q, r, h, ?_, h3 (by omega)⟩
  simp only [Nat.sub_self, Nat.pow_zero, Nat.mul_one, Nat.div_one] at h1 h2
  rw [h1]; exact h2

/-- C08: division by zero returns all ones and the dividend. -/
theorem C08_ct_div_zero (hw : w ≤ 128) (hw1 : 1 < w) (O : IntOps w) (hO : IsUnsigned O) (a : BitVec w) :
    ctDiv O a 0#w = .ok (BitVec.allOnes w, a) := by
  obtain ⟨q, r, h, Q, h1, h2, _, h4, _⟩ := ctDiv_inv hw hw1 hO a 0#w
  simp only [Nat.sub_self, Nat.pow_zero, Nat.mul_one, Nat.div_one, BitVec.toNat_ofNat, Nat.zero_mod,
    Nat.mul_zero, Nat.zero_add, true_implies] at h1 h2 h4
  rw [h]
  congr 2
  · apply BitVec.eq_of_toNat_eq; rw [h1, h4, BitVec.toNat_allOnes]
  · apply BitVec.eq_of_toNat_eq; exact h2.symm

/-- C08/C09, disagreement: instantiated with a signed type, `ct_div` is wrong (not even `a = q*d + r`
modulo `2^w`), since the signed mask lacks the sign bit. -/
theorem C08_ct_div_signed_refuted :
    ∃ a d q r : BitVec 8, 0 < d.toInt ∧ ctDiv pubS a d = .ok (q, r) ∧ a ≠ q * d + r :=
  ⟨0xff#8, 1#8, 0x7f#8, 0#8, by decide, by decide, by decide⟩

/-- C08, signed public types: for a nonnegative dividend and a positive divisor the result is right. -/
theorem C08_ct_div_signed_partial (hw : w ≤ 128) (hw1 : 1 < w) (a d : BitVec w) (ha : 0 ≤ a.toInt) (hd : 0 < d.toInt) :
    ∃ q r, ctDiv pubS a d = .ok (q, r) ∧ a.toInt = q.toInt * d.toInt + r.toInt ∧ 0 ≤ q.toInt ∧ 0 ≤ r.toInt ∧
      r.toInt < d.toInt := by
  have conv : ∀ x : BitVec w, 0 ≤ x.toInt → x.toNat < 2 ^ (w - 1) := by
    intro x hx
    have hp : 2 ^ w = 2 * 2 ^ (w - 1) := by rw [← Nat.pow_succ']; congr 1; omega
    rw [BitVec.toInt_eq_toNat_cond] at hx
    split at hx <;> have := x.isLt <;> omega
  have ea := toInt_of_small (conv a ha)
  have ed := toInt_of_small (conv d hd.le)
  have hd0 : 0 < d.toNat := by omega
  obtain ⟨q, r, h, Q, h1, h2, h3, _, _⟩ := ctDiv_signed hw hw1 a d (conv a ha) (conv d hd.le) hd0
  simp only [Nat.sub_self, Nat.pow_zero, Nat.mul_one, Nat.div_one] at h1 h2
  have hr := h3 hd0
  have hq : q.toNat ≤ a.toNat := by
    rw [h2, h1]; exact (Nat.le_mul_of_pos_right Q hd0).trans (Nat.le_add_right _ _)
  have eq := toInt_of_small (Nat.lt_of_le_of_lt hq (conv a ha))
  have er := toInt_of_small (Nat.lt_trans hr (conv d hd.le))
  refine ⟨q, r, h, ?_, by omega, by omega, by omega⟩
  rw [ea, ed, eq, er, h1]
  exact_mod_cast h2

/-- C08, signed secret types: the comparison is unimplemented, so `ct_div` never returns. -/
theorem C08_ct_div_secret_signed (hw : w ≤ 128) (hw1 : 1 < w) (a d : BitVec w) : ctDiv secS a d = panic :=
  ctDiv_secS hw hw1 a d

example : ∃ q r, ctDiv (pubS : IntOps 8) 100#8 7#8 = .ok (q, r) ∧ (100#8).toInt = q.toInt * (7#8).toInt + r.toInt ∧
    0 ≤ q.toInt ∧ 0 ≤ r.toInt ∧ r.toInt < (7#8).toInt :=
  C08_ct_div_signed_partial (by decide) (by decide) _ _ (by decide) (by decide)

example : ∃ q r, ctDiv (secU : IntOps 64) (1000003#64) (1009#64) = .ok (q, r) ∧
    1000003 = q.toNat * 1009 + r.toNat ∧ r.toNat < 1009 :=
  C08_ct_div (by decide) (by decide) secU (Or.inr rfl) _ _ (by decide)

/-! ## C09 public comparison masks -/

/-- C09 (unsigned types): public masks are all ones or zero; they agree with the secret masks. -/
theorem C09_masks_unsigned_partial (hw : 0 < w) (r : Rel) (x y : BitVec w) :
    bmPubU r x y = (if r.holds x.toNat y.toNat then BitVec.allOnes w else 0#w) ∧
    bmSecU r x y = bmPubU r x y := by
  refine ⟨rfl, ?_⟩
  cases r <;> simp only [bmSecU, bmPubU, pubMask, maxU, Rel.holds]
  · rw [C01_comp_ne hw]; simp
  · rw [C01_comp_eq hw]; simp
  · rw [C01_comp_gt hw]; simp
  · rw [C01_comp_gte hw]; simp
  · rw [C01_comp_lt hw]; simp
  · rw [C01_comp_lte hw]; simp

/-- C09, disagreement with the documentation (signed types): whenever a relation holds, the returned
mask is never the all-ones word. -/
theorem C09_masks_signed_refuted (hw : 0 < w) (r : Rel) (x y : BitVec w) (h : r.holds x.toInt y.toInt) :
    bmPubS r x y ≠ BitVec.allOnes w := by
  simp only [bmPubS, pubMask, h, if_true, maxS]
  intro e
  have h2 : 2 ^ w = 2 ^ (w - 1) * 2 := by rw [← Nat.pow_succ]; congr 1; omega
  have hp := Nat.two_pow_pos (w - 1)
  have := congrArg BitVec.toNat e
  rw [BitVec.toNat_intMax, BitVec.toNat_allOnes] at this
  omega

/-- C09 (signed types): the value of every public mask: the largest signed number when the relation holds between
the signed values, else zero; the mask used by `ct_div` is one of these (and panics for secret signed types). -/
theorem C09_masks_signed_value (hw : 0 < w) (r : Rel) (x y : BitVec w) :
    (bmPubS r x y).toInt = (if r.holds x.toInt y.toInt then 2 ^ (w - 1) - 1 else 0) ∧
    (∃ m : BitVec w, pubS.gteBm x y = .ok m ∧ m.toInt = if y.toInt ≤ x.toInt then 2 ^ (w - 1) - 1 else 0) ∧
    (pubU.gteBm x y = .ok (if y.toNat ≤ x.toNat then BitVec.allOnes w else 0#w)) ∧
    (secU.gteBm x y = pubU.gteBm x y) ∧ secS.gteBm x y = panic := by
  have hm : ∀ b : Bool, (pubMask (maxS : BitVec w) b).toInt = if b then 2 ^ (w - 1) - 1 else 0 := by
    intro b
    cases b
    · simp [pubMask]
    · have hp := Nat.two_pow_pos (w - 1)
      have e : (BitVec.intMax w).toNat < 2 ^ (w - 1) := by rw [BitVec.toNat_intMax]; omega
      simp only [pubMask, maxS, if_true]
      rw [toInt_of_small e, BitVec.toNat_intMax, Int.ofNat_sub hp]
      simp
  refine ⟨hm _, ⟨_, rfl, ?_⟩, ?_, ?_, rfl⟩
  · rw [hm]; simp
  · simp [pubU, pubMask, maxU]
  · have := (C09_masks_unsigned_partial hw .gte x y).2
    simp only [bmSecU, bmPubU, Rel.holds] at this
    simp only [secU, pubU, this]
    simp

example : (bmPubS .lt (-3#8) (5#8)).toInt = 127 := (C09_masks_signed_value (by decide) .lt _ _).1.trans (by decide)
example : pubS.gteBm (5#8) (-3#8) = .ok 0x7f#8 := by decide

example : bmPubU .gt (200#8) (100#8) = 0xff#8 := (C09_masks_unsigned_partial (by decide) .gt _ _).1
example : bmPubS .eq (5#8) (5#8) ≠ BitVec.allOnes 8 :=
  C09_masks_signed_refuted (by decide) .eq _ _ (by decide)

/-! ## C10 modular machine arithmetic -/

theorem remU_spec (x n : BitVec w) (hn : n ≠ 0#w) :
    ∃ y, remU x n = .ok y ∧ y.toNat = x.toNat % n.toNat :=
  ⟨x % n, by simp [remU, hn], BitVec.toNat_umod⟩

/-- C10: `add_mod`, `mul_mod`, `modulo` on unsigned integers. -/
theorem C10_add_mul_mod_unsigned (x y n : BitVec w) :
    (n ≠ 0#w → x.toNat + y.toNat < 2 ^ w →
      ∃ r, addModU x y n = .ok r ∧ r.toNat = (x.toNat + y.toNat) % n.toNat) ∧
    (n = 0#w ∨ 2 ^ w ≤ x.toNat + y.toNat → addModU x y n = panic) ∧
    (n ≠ 0#w → x.toNat * y.toNat < 2 ^ w →
      ∃ r, mulModU x y n = .ok r ∧ r.toNat = (x.toNat * y.toNat) % n.toNat) ∧
    (n = 0#w ∨ 2 ^ w ≤ x.toNat * y.toNat → mulModU x y n = panic) ∧
    (n ≠ 0#w → ∃ r, moduloU x n = .ok r ∧ r.toNat = x.toNat % n.toNat) ∧
    (n = 0#w → moduloU x n = panic) := by
  obtain ⟨a1, a2, _, _, m1, m2⟩ := C02_checked_unsigned x y
  refine ⟨fun hn h => ?_, fun h => ?_, fun hn h => ?_, fun h => ?_, fun hn => remU_spec x n hn,
    fun h => by simp [moduloU, remU, h]⟩
  · obtain ⟨s, hs, hv⟩ := a1 h
    obtain ⟨r, hr, hrv⟩ := remU_spec s n hn
    exact ⟨r, by simp [addModU, addU, hs, hr], by rw [hrv, hv]⟩
  · by_cases h2 : x.toNat + y.toNat < 2 ^ w
    · obtain ⟨s, hs, _⟩ := a1 h2
      have hn : n = 0#w := by rcases h with h | h <;> [exact h; omega]
      simp [addModU, addU, hs, remU, hn]
    · simp [addModU, addU, a2 (by omega)]
  · obtain ⟨s, hs, hv⟩ := m1 h
    obtain ⟨r, hr, hrv⟩ := remU_spec s n hn
    exact ⟨r, by simp [mulModU, mulU, hs, hr], by rw [hrv, hv]⟩
  · by_cases h2 : x.toNat * y.toNat < 2 ^ w
    · obtain ⟨s, hs, _⟩ := m1 h2
      have hn : n = 0#w := by rcases h with h | h <;> [exact h; omega]
      simp [mulModU, mulU, hs, remU, hn]
    · simp [mulModU, mulU, m2 (by omega)]

/-- C10: complete description of unsigned `sub_mod`.  `k` is the number of times `n` is added: the least
number with `y ≤ x + k*n`. -/
theorem C10_sub_mod_unsigned (x y n : BitVec w) :
    (n.toNat ≠ 0 → ∀ k, y.toNat ≤ x.toNat + k * n.toNat → (∀ j, j < k → x.toNat + j * n.toNat < y.toNat) →
      (x.toNat + k * n.toNat < 2 ^ w →
        ∃ r, subModU x y n = .ok r ∧ (r.toNat : Int) = ((x.toNat : Int) - y.toNat) % n.toNat) ∧
      (2 ^ w ≤ x.toNat + k * n.toNat → subModU x y n = panic)) ∧
    (n.toNat = 0 → x.toNat < y.toNat → subModU x y n = .error .diverge) ∧
    (n.toNat = 0 → y.toNat ≤ x.toNat → subModU x y n = panic) := by
  refine ⟨fun hn k hk hmin => ?_, fun hn hlt => ?_, fun hn hle => ?_⟩
  · have hnpos : 0 < n.toNat := Nat.pos_of_ne_zero hn
    have hkc : cdiv (y.toNat - x.toNat) n.toNat = k := by
      simp only [cdiv]
      apply Nat.div_eq_of_lt_le
      · rcases Nat.eq_zero_or_pos k with h0 | h0
        · subst h0; simp
        · have := hmin (k - 1) (by omega)
          have e : k * n.toNat = (k - 1) * n.toNat + n.toNat := by
            conv => lhs; rw [show k = (k - 1) + 1 by omega]
            rw [Nat.add_mul, Nat.one_mul]
          omega
      · rw [Nat.add_mul, Nat.one_mul]; omega
    have hloop := subLoop y n hnpos (2 ^ w + 1) x (by have := y.isLt; omega)
    rw [hkc] at hloop
    constructor
    · intro hfit
      rw [if_pos hfit] at hloop
      have hv : (BitVec.ofNat w (x.toNat + k * n.toNat)).toNat = x.toNat + k * n.toNat := by
        rw [BitVec.toNat_ofNat, Nat.mod_eq_of_lt hfit]
      obtain ⟨d, hd, hdv⟩ := (C02_checked_unsigned (BitVec.ofNat w (x.toNat + k * n.toNat)) y).2.2.1
        (by rw [hv]; exact hk)
      obtain ⟨r, hr, hrv⟩ := remU_spec d n (by intro h; subst h; simp at hn)
      refine ⟨r, by simp only [subModU, hloop, bind_ok, subU, hd, hr], ?_⟩
      rw [hrv, hdv, hv]
      push_cast [hk]
      have : (x.toNat : Int) + k * n.toNat - y.toNat = (x.toNat - y.toNat) + n.toNat * k := by ring
      rw [this, Int.add_mul_emod_self_left]
    · intro hov
      rw [if_neg (by omega)] at hloop
      simp only [subModU, hloop, bind_panic]
  · have : n = 0#w := BitVec.eq_of_toNat_eq (by simpa using hn)
    subst this
    simp only [subModU, subLoop_zero y x hlt, bind_error]
  · have : n = 0#w := BitVec.eq_of_toNat_eq (by simpa using hn)
    subst this
    simp only [subModU]
    rw [whileM_done (Nat.succ_pos _) (by simpa using hle), bind_ok]
    simp [subU, checkedSubU, hle, remU]

/-- The exact result of an `i128` computation fits (always true for operands of at most 64 bits). -/
def FitsI128 (z : Int) : Prop := -(2 ^ 127 : Int) ≤ z ∧ z < 2 ^ 127

instance (z : Int) : Decidable (FitsI128 z) := by unfold FitsI128; infer_instance

theorem toInt_fits128 (hw : w ≤ 128) (x : BitVec w) : fitsS 128 x.toInt := by
  have h1 := BitVec.le_two_mul_toInt (x := x)
  have h2 := BitVec.two_mul_toInt_lt (x := x)
  have h3 : 2 ^ w ≤ 2 ^ 128 := Nat.pow_le_pow_right (by omega) hw
  have h4 : ((2 : Int) ^ w) = ((2 ^ w : Nat) : Int) := pow_cast w
  rw [h4] at h1 h2
  generalize 2 ^ w = k at *
  simp only [fitsS]
  omega

theorem ofInt_small (hw : 0 < w) (n : BitVec w) (v : Int) (h0 : 0 ≤ v) (h1 : v < n.toInt) :
    (BitVec.ofInt w v).toInt = v := by
  have h2 := BitVec.two_mul_toInt_lt (x := n)
  have hpc : ((2 : Int) ^ w) = ((2 ^ w : Nat) : Int) := pow_cast w
  rw [hpc] at h2
  rw [BitVec.toInt_ofInt]
  rw [Int.bmod_eq_of_le] <;> omega

/-- C10: the signed operations return the canonical residue for every positive modulus whenever the
exact result fits an `i128`, and panic when it does not, or when the modulus is zero. -/
theorem C10_signed (hw : 0 < w) (h128 : w ≤ 128) (x y n : BitVec w) (hn : 0 < n.toInt) :
    (∀ z, z = x.toInt + y.toInt → (FitsI128 z → ∃ r, addModS x y n = .ok r ∧ r.toInt = z % n.toInt) ∧
      (¬ FitsI128 z → addModS x y n = panic)) ∧
    (∀ z, z = x.toInt - y.toInt → (FitsI128 z → ∃ r, subModS x y n = .ok r ∧ r.toInt = z % n.toInt) ∧
      (¬ FitsI128 z → subModS x y n = panic)) ∧
    (∀ z, z = x.toInt * y.toInt → (FitsI128 z → ∃ r, mulModS x y n = .ok r ∧ r.toInt = z % n.toInt) ∧
      (¬ FitsI128 z → mulModS x y n = panic)) ∧
    (∃ r, moduloS x n = .ok r ∧ r.toInt = x.toInt % n.toInt) := by
  have hnf := toInt_fits128 h128 n
  have key : ∀ z, FitsI128 z → i128 z = .ok z ∧ signedMod z n.toInt = .ok (z % n.toInt) ∧
      (BitVec.ofInt w (z % n.toInt)).toInt = z % n.toInt := by
    intro z hz
    have hz' : fitsS 128 z := hz
    exact ⟨by simp [i128, hz'], signedMod_pos hz' hn hnf,
      ofInt_small hw n _ (Int.emod_nonneg _ (by omega)) (Int.emod_lt_of_pos _ hn)⟩
  have keyn : ∀ z, ¬ FitsI128 z → i128 z = panic := by
    intro z hz
    have hz' : ¬ fitsS 128 z := hz
    simp [i128, hz']
  refine ⟨?_, ?_, ?_, ?_⟩
  · intro z hz; subst hz
    refine ⟨fun h => ?_, fun h => by simp only [addModS, keyn _ h, bind_panic]⟩
    obtain ⟨h1, h2, h3⟩ := key _ h
    exact ⟨_, by simp only [addModS, h1, h2, bind_ok], h3⟩
  · intro z hz; subst hz
    refine ⟨fun h => ?_, fun h => by simp only [subModS, keyn _ h, bind_panic]⟩
    obtain ⟨h1, h2, h3⟩ := key _ h
    exact ⟨_, by simp only [subModS, h1, h2, bind_ok], h3⟩
  · intro z hz; subst hz
    refine ⟨fun h => ?_, fun h => by simp only [mulModS, keyn _ h, bind_panic]⟩
    obtain ⟨h1, h2, h3⟩ := key _ h
    exact ⟨_, by simp only [mulModS, h1, h2, bind_ok], h3⟩
  · obtain ⟨h1, h2, h3⟩ := key x.toInt (toInt_fits128 h128 x)
    exact ⟨_, by simp only [moduloS, h2, bind_ok], h3⟩

/-- C10: operands of at most 64 bits never overflow the `i128` intermediate. -/
theorem C10_signed_fits (h64 : w ≤ 64) (x y : BitVec w) :
    FitsI128 (x.toInt + y.toInt) ∧ FitsI128 (x.toInt - y.toInt) ∧ FitsI128 (x.toInt * y.toInt) := by
  have bound : ∀ x : BitVec w, -(2 ^ 63 : Int) ≤ x.toInt ∧ x.toInt < 2 ^ 63 := by
    intro x
    have h1 := BitVec.le_two_mul_toInt (x := x)
    have h2 := BitVec.two_mul_toInt_lt (x := x)
    have h3 : 2 ^ w ≤ 2 ^ 64 := Nat.pow_le_pow_right (by omega) h64
    have h4 : ((2 : Int) ^ w) = ((2 ^ w : Nat) : Int) := pow_cast w
    rw [h4] at h1 h2
    generalize 2 ^ w = k at *
    omega
  have hx := bound x
  have hy := bound y
  refine ⟨by simp only [FitsI128]; omega, by simp only [FitsI128]; omega, ?_⟩
  have habs : (x.toInt * y.toInt).natAbs ≤ 2 ^ 63 * 2 ^ 63 := by
    rw [Int.natAbs_mul]; exact Nat.mul_le_mul (by omega) (by omega)
  simp only [FitsI128]
  omega

/-- C10: signed operations with modulus zero panic. -/
theorem C10_signed_zero (x y : BitVec w) :
    addModS x y 0#w = panic ∧ subModS x y 0#w = panic ∧ mulModS x y 0#w = panic ∧
    moduloS x 0#w = panic := by
  have h : ∀ z, (i128 z >>= fun d => signedMod d (0#w).toInt >>= fun r => Except.ok (BitVec.ofInt w r))
      = panic := by
    intro z
    simp only [BitVec.toInt_zero, signedMod_zero, bind_panic]
    simp only [i128]; split <;> rfl
  refine ⟨h _, h _, h _, ?_⟩
  simp [moduloS, signedMod_zero]

/-- C10: behaviour for a negative modulus: the remainder with the sign of the dividend when it is not
negative, else a panic (the correction loop runs away from zero until it overflows). -/
theorem C10_signed_negative_modulus (h128 : w ≤ 128) (x n : BitVec w) (hn : n.toInt < 0) :
    moduloS x n = if FitsI128 (x.toInt.tdiv n.toInt) ∧ 0 ≤ x.toInt.tmod n.toInt
      then .ok (BitVec.ofInt w (x.toInt.tmod n.toInt)) else panic := by
  have h := signedMod_neg (toInt_fits128 h128 x) hn (toInt_fits128 h128 n)
  by_cases hc : FitsI128 (x.toInt.tdiv n.toInt) ∧ 0 ≤ x.toInt.tmod n.toInt
  · have hc' : fitsS 128 (x.toInt.tdiv n.toInt) ∧ 0 ≤ x.toInt.tmod n.toInt := hc
    rw [if_pos hc, moduloS, h, if_pos hc', bind_ok]
  · have hc' : ¬ (fitsS 128 (x.toInt.tdiv n.toInt) ∧ 0 ≤ x.toInt.tmod n.toInt) := hc
    rw [if_neg hc, moduloS, h, if_neg hc', bind_panic]

example : ∃ r, subModU (3#32) (5#32) (7#32) = .ok r ∧ (r.toNat : Int) = ((3 : Int) - 5) % 7 :=
  ((C10_sub_mod_unsigned (3#32) (5#32) (7#32)).1 (by decide) 1 (by decide)
    (by intro j hj; obtain rfl : j = 0 := by omega
        decide)).1 (by decide)
example : subModU (3#8) (5#8) (0#8) = .error .diverge :=
  (C10_sub_mod_unsigned (3#8) (5#8) (0#8)).2.1 (by decide) (by decide)
example : addModU (200#8) (100#8) (251#8) = panic :=
  (C10_add_mul_mod_unsigned (200#8) (100#8) (251#8)).2.1 (Or.inr (by decide))
example : ∃ r, subModS (3#32) (5#32) (7#32) = .ok r ∧ r.toInt = 5 :=
  ((C10_signed (by decide) (by decide) (3#32) (5#32) (7#32) (by decide)).2.1 _ rfl).1 (by decide)

/-! ## C11 modular inverse -/

/-- C11 (partial: moduli whose square fits the type). `B` is the number of non-negative values of the
type: `2^w` for unsigned, `2^(w-1)` for signed types.  For `x ≠ 0` and `n > 1` with `n*n ≤ B` the inverse
exists and is returned when `gcd(x,n) = 1`, else the call panics. -/
theorem C11_inv_partial (hw : 1 < w) (O : IntOps w) (B : Nat)
    (hO : (O = pubU ∨ O = secU) ∧ B = 2 ^ w ∨ (O = pubS ∨ O = secS) ∧ B = 2 ^ (w - 1))
    (x n : BitVec w) (hx : 0 < x.toNat) (hxB : x.toNat < B) (hn : 1 < n.toNat)
    (hN : n.toNat * n.toNat ≤ B) :
    (Nat.gcd x.toNat n.toNat = 1 → ∃ y, euclidInvert O x n = .ok y ∧ y.toNat < n.toNat ∧
      (y.toNat * x.toNat) % n.toNat = 1) ∧
    (Nat.gcd x.toNat n.toNat ≠ 1 → euclidInvert O x n = panic) := by
  have E : ExactBelow O B := by
    rcases hO with ⟨h | h, rfl⟩ | ⟨h | h, rfl⟩ <;> subst h
    · exact exact_pubU (by omega)
    · exact exact_secU (by omega)
    · exact exact_pubS hw
    · exact exact_secS hw
  have hx0 : x ≠ 0#w := by intro h; subst h; simp at hx
  rcases euclidInvert_spec E x n hx0 hxB hn hN with ⟨h1, h2⟩ | ⟨h1, h2⟩
  · exact ⟨fun _ => h2, fun h => absurd h1 h⟩
  · exact ⟨fun h => absurd h h1, fun _ => h2⟩

/-- C11: with public integers a result is always right, whatever the size of the modulus: the call returns the inverse
or panics.  (It always panics when there is no inverse, and never diverges.) -/
theorem C11_inv_public (hw : 1 < w) (O : IntOps w) (B : Nat) (hO : O = pubU ∧ B = 2 ^ w ∨ O = pubS ∧ B = 2 ^ (w - 1))
    (x n : BitVec w) (hx : 0 < x.toNat) (hxB : x.toNat < B) (hn : 1 < n.toNat) (hnB : n.toNat < B) :
    (Nat.gcd x.toNat n.toNat = 1 ∧ ∃ y, euclidInvert O x n = .ok y ∧ y.toNat < n.toNat ∧
      (y.toNat * x.toNat) % n.toNat = 1) ∨ euclidInvert O x n = panic := by
  have hx0 : x ≠ 0#w := by intro h; subst h; simp at hx
  rcases hO with ⟨rfl, rfl⟩ | ⟨rfl, rfl⟩
  · exact euclidInvert_or (checked_pubU (by omega)) x n hx0 hxB hn hnB
  · exact euclidInvert_or (checked_pubS hw) x n hx0 hxB hn hnB

example : euclidInvert (pubU : IntOps 128) 3#128 (BitVec.ofNat 128 (2 ^ 127 - 1)) =
    .ok (BitVec.ofNat 128 113427455640312821154458202477256070485) := by decide +kernel

/-- C11, disagreement: zero is not invertible, but the call returns 0 instead of panicking. -/
theorem C11_inv_zero_refuted (O : IntOps w) (hO : O.lt 0#w 0#w = false) (n : BitVec w) :
    euclidInvert O 0#w n = .ok 0#w := by
  simp only [euclidInvert]
  rw [whileM_done (Nat.succ_pos _) (by simp), bind_ok]
  simp [hO]

/-- C11, disagreement: with public integers and a large modulus, an invertible element makes the call
panic (overflow). -/
theorem C11_inv_overflow_refuted :
    ∃ x n : BitVec 8, Nat.gcd x.toNat n.toNat = 1 ∧ 0 < x.toNat ∧ x.toNat < n.toNat ∧
      euclidInvert pubU x n = panic :=
  ⟨5#8, 251#8, by decide, by decide, by decide, by decide +kernel⟩

/-- C11, disagreement: with secret integers and a large modulus the call silently returns a number that
is not the inverse. -/
theorem C11_inv_wrong_refuted :
    ∃ x n y : BitVec 8, Nat.gcd x.toNat n.toNat = 1 ∧ 0 < x.toNat ∧ x.toNat < n.toNat ∧
      euclidInvert secU x n = .ok y ∧ (y.toNat * x.toNat) % n.toNat ≠ 1 :=
  ⟨23#8, 25#8, 18#8, by decide, by decide, by decide, by decide +kernel, by decide⟩

/-- C11, disagreement: with secret integers the call may even fail to terminate. -/
theorem C11_inv_diverges_refuted :
    ∃ x n : BitVec 8, Nat.gcd x.toNat n.toNat = 1 ∧ 0 < x.toNat ∧ x.toNat < n.toNat ∧
      euclidInvert secU x n = .error .diverge :=
  ⟨23#8, 48#8, by decide, by decide, by decide, by decide +kernel⟩

example : ∃ y, euclidInvert (pubS : IntOps 32) (5#32) (2147#32) = .ok y ∧ y.toNat < 2147 ∧
    (y.toNat * 5) % 2147 = 1 :=
  (C11_inv_partial (by decide) pubS (2 ^ 31) (Or.inr ⟨Or.inl rfl, rfl⟩) (5#32) (2147#32) (by decide)
    (by decide) (by decide) (by decide)).1 (by decide)

/-! ## C12 secret exponentiation -/

/-- C12: `pow` is the power in `ℤ / 2^w`. -/
theorem C12_pow (x : BitVec w) (e : Nat) :
    ∃ y, secPow x e = .ok y ∧ y.toNat = x.toNat ^ e % 2 ^ w := by
  by_cases h : e = 0
  · subst h; exact ⟨1#w, by simp [secPow], by simp⟩
  · simp only [secPow, h, if_false]
    obtain ⟨y, hy, hv⟩ := loop_inv (n := e - 1) (s := x) (body := fun _ s => .ok (SecretInt.mul s x))
      (fun i s => s.toNat = x.toNat ^ (i + 1) % 2 ^ w)
      (by simp [Nat.mod_eq_of_lt x.isLt])
      (fun i _ s hs => ⟨_, rfl, by
        simp only [SecretInt.mul, BitVec.toNat_mul, hs]
        rw [Nat.pow_succ _ (i + 1), Nat.mul_mod, Nat.mod_mod, ← Nat.mul_mod]⟩)
    exact ⟨y, hy, by rw [hv, show e - 1 + 1 = e by omega]⟩

example : ∃ y, secPow (3#8) 7 = .ok y ∧ y.toNat = 3 ^ 7 % 2 ^ 8 := C12_pow (3#8) 7

end Hacspec.Props
