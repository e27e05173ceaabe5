import Verif.Lemmas.AbstractInt
import Verif.Props.Seqs
import Mathlib.Tactic.Ring
import Mathlib.Algebra.Order.Ring.Int
import Mathlib.Algebra.Ring.Parity

/-! # Property theorems C20–C23: bounded big integers -/

namespace Hacspec.Props

open SecretInt AbstractInt

/-! ## Specification -/

/-- Specification: the integers a type of `bits` bits can hold. -/
def Representable (bits : Nat) (signed : Bool) (x : Int) : Prop :=
  x < 2 ^ bits - 1 ∧ (if signed then -(256 ^ ((bits + 7) / 8)) < x else 0 ≤ x)

instance (bits : Nat) (signed : Bool) (x : Int) : Decidable (Representable bits signed x) := by
  unfold Representable; infer_instance

/-- Specification: a call yields a value that decodes to `z` when `z` is representable and panics
otherwise. -/
def Exactly (bits : Nat) (signed : Bool) (r : M Canvas) (z : Int) : Prop :=
  (Representable bits signed z → ∃ c, r = .ok c ∧ toBig c = z) ∧
  (¬ Representable bits signed z → r = panic)

theorem inRange_iff (bits : Nat) (signed : Bool) (x : Int) :
    InRange bits signed x ↔ Representable bits signed x := by
  have hp : ((256 ^ nb bits : Nat) : Int) = 256 ^ nb bits := by rw [Int.natCast_pow]; rfl
  have hpos : 0 < 256 ^ nb bits := Nat.pow_pos (by decide)
  unfold InRange Representable
  rw [show (bits + 7) / 8 = nb bits from rfl]
  cases signed
  · simp
  · simp only [if_true, true_and]
    constructor
    · rintro ⟨h1, h | h⟩
      · exact ⟨h1, by omega⟩
      · exact ⟨h1, by omega⟩
    · rintro ⟨h1, h⟩
      refine ⟨h1, ?_⟩
      by_cases h0 : 0 ≤ x
      · exact Or.inl h0
      · right; omega

theorem exactly_fromBig (bits : Nat) (signed : Bool) (z : Int) :
    Exactly bits signed (fromBig bits signed z) z := by
  rw [Exactly, ← inRange_iff]
  exact ⟨fun h => ⟨_, fromBig_ok h, toBig_enc _ _⟩, fun h => fromBig_panic h⟩

theorem exactly_guarded (bits : Nat) (signed : Bool) (z : Int) :
    Exactly bits signed (if z > AbstractInt.max bits then panic else fromBig bits signed z) z := by
  rw [guarded_fromBig, ← fromBig_eq]; exact exactly_fromBig _ _ _

/-! ## C20 range -/

/-- C20: conversion from a big integer succeeds exactly on the representable range and is faithful. -/
theorem C20_convert (bits : Nat) (signed : Bool) (x : Int) :
    Exactly bits signed (fromBig bits signed x) x := exactly_fromBig _ _ _

/-- C20: `from_literal` gives the literal or panics; `from_signed_literal`, whose argument has the type `i128`, reads a
negative literal as the number `2^128` larger. -/
theorem C20_from_literal (bits : Nat) (signed : Bool) (x : BitVec 128) :
    Exactly bits signed (AbstractInt.fromLiteral bits signed x) x.toNat ∧
    Exactly bits signed (AbstractInt.fromSignedLiteral bits signed x) (if 0 ≤ x.toInt then x.toInt else x.toInt + 2 ^ 128) := by
  refine ⟨exactly_guarded _ _ _, ?_⟩
  have h : (if 0 ≤ x.toInt then x.toInt else x.toInt + 2 ^ 128) = (x.toNat : Int) := by
    rw [BitVec.toInt_eq_toNat_cond]
    have := x.isLt
    split <;> split <;> omega
  rw [h]
  exact exactly_guarded _ _ _

/-- Values obtainable through the API of a type. -/
inductive Reach (bits : Nat) (signed : Bool) : Canvas → Prop
  | default : Reach bits signed (AbstractInt.default bits)
  | ofBig (x c) (h : fromBig bits signed x = .ok c) : Reach bits signed c
  | ofBigUint (x c) (h : fromBigUint bits signed x = .ok c) : Reach bits signed c
  | literal (x c) (h : fromLiteral bits signed x = .ok c) : Reach bits signed c
  | signedLiteral (x c) (h : fromSignedLiteral bits signed x = .ok c) : Reach bits signed c
  | pow2 (x c) (h : AbstractInt.pow2 bits signed x = .ok c) : Reach bits signed c
  | hex (s c) (hs : signed = false) (h : fromHex bits s = .ok c) : Reach bits signed c
  | hexSigned (g s c) (hs : signed = true) (h : fromHexSigned bits g s = .ok c) : Reach bits signed c
  | leBytes (v c) (hs : signed = false) (h : AbstractInt.fromLeBytes bits v = .ok c) : Reach bits signed c
  | add (x y c) (hx : Reach bits signed x) (hy : Reach bits signed y) (h : AbstractInt.add bits signed x y = .ok c) :
      Reach bits signed c
  | sub (x y c) (hx : Reach bits signed x) (hy : Reach bits signed y) (h : AbstractInt.sub bits signed x y = .ok c) :
      Reach bits signed c
  | mul (x y c) (hx : Reach bits signed x) (hy : Reach bits signed y) (h : AbstractInt.mul bits signed x y = .ok c) :
      Reach bits signed c
  | div (x y c) (hx : Reach bits signed x) (hy : Reach bits signed y) (h : AbstractInt.div bits signed x y = .ok c) :
      Reach bits signed c
  | rem (x y c) (hx : Reach bits signed x) (hy : Reach bits signed y) (h : AbstractInt.rem bits signed x y = .ok c) :
      Reach bits signed c
  | inv (x m c) (hx : Reach bits signed x) (hm : Reach bits signed m) (h : AbstractInt.inv bits signed x m = .ok c) :
      Reach bits signed c
  | powFelem (x e m c) (hx : Reach bits signed x) (he : Reach bits signed e) (hm : Reach bits signed m)
      (h : AbstractInt.powFelem bits signed x e m = .ok c) : Reach bits signed c
  | pow (x e m c) (hx : Reach bits signed x) (hm : Reach bits signed m)
      (h : AbstractInt.pow bits signed x e m = .ok c) : Reach bits signed c

/-- A struct that represents an integer properly. -/
def Proper (bits : Nat) (signed : Bool) (c : Canvas) : Prop :=
  c.b.length = nb bits ∧ InRange bits signed (toBig c) ∧ (toBigUint c : Int) = (toBig c).natAbs

theorem proper_fromBig {bits signed x c} (h : fromBig bits signed x = .ok c) : Proper bits signed c := by
  rw [fromBig_eq] at h
  split at h
  · rename_i hr
    cases h
    refine ⟨length_enc hr, by rwa [toBig_enc], ?_⟩
    rw [toBig_enc, toBigUint, natOfBe_enc]
  · simp at h

theorem proper_guarded {bits signed x c} (h : (if x > AbstractInt.max bits then panic else fromBig bits signed x) = .ok c) :
    Proper bits signed c := by
  rw [guarded_fromBig, ← fromBig_eq] at h; exact proper_fromBig h

theorem toBig_default (bits : Nat) : toBig (AbstractInt.default bits) = 0 := by
  simp [AbstractInt.default, toBig, natOfBe, leNat_replicate_zero]

theorem proper_default {bits : Nat} (signed : Bool) (hb : 0 < bits) : Proper bits signed (AbstractInt.default bits) := by
  have hc := cast_two_pow bits
  have h2 : 1 < 2 ^ bits := Nat.one_lt_two_pow (by omega)
  refine ⟨by simp [AbstractInt.default], ?_, ?_⟩
  · rw [toBig_default]; exact ⟨by omega, Or.inl (by omega)⟩
  · rw [toBig_default]; simp [AbstractInt.default, toBigUint, natOfBe, leNat_replicate_zero]

theorem proper_of_reach {bits : Nat} {signed : Bool} (hb : 0 < bits) {c : Canvas} (h : Reach bits signed c) :
    Proper bits signed c := by
  induction h with
  | default => exact proper_default signed hb
  | ofBig x c h => exact proper_fromBig h
  | ofBigUint x c h => exact proper_fromBig h
  | literal x c h => exact proper_guarded h
  | signedLiteral x c h => exact proper_guarded h
  | pow2 x c h => exact proper_fromBig h
  | hex s c hs h =>
    subst hs; obtain ⟨v, _, h⟩ := bind_eq_ok.mp h; exact proper_fromBig h
  | hexSigned g s c hs h =>
    subst hs; obtain ⟨v, _, h⟩ := bind_eq_ok.mp h; obtain ⟨v, _, h⟩ := bind_eq_ok.mp h; exact proper_fromBig h
  | leBytes v c hs h => subst hs; exact proper_fromBig h
  | add x y c _ _ h => exact proper_guarded h
  | sub x y c _ _ h => exact proper_fromBig h
  | mul x y c _ _ h => exact proper_guarded h
  | div x y c _ _ h =>
    rw [AbstractInt.div] at h
    split at h
    · simp at h
    · exact proper_fromBig h
  | rem x y c _ _ h =>
    rw [AbstractInt.rem] at h
    split at h
    · simp at h
    · exact proper_fromBig h
  | inv x m c _ _ h => obtain ⟨v, _, h⟩ := bind_eq_ok.mp h; exact proper_fromBig h
  | powFelem x e m c _ _ _ h => obtain ⟨v, _, h⟩ := bind_eq_ok.mp h; exact proper_fromBig h
  | pow x e m c _ _ h =>
    obtain ⟨v, _, h⟩ := bind_eq_ok.mp h; obtain ⟨v, _, h⟩ := bind_eq_ok.mp h; exact proper_fromBig h

/-- C20: whatever sequence of API calls produced a value, it decodes to a representable integer, its
unsigned decoding is the absolute value, and re-encoding the decoded integer gives an equal value. -/
theorem C20_api_values_in_range {bits : Nat} {signed : Bool} (hb : 0 < bits) {c : Canvas} (h : Reach bits signed c) :
    Representable bits signed (toBig c) ∧ toBigUint c = (toBig c).natAbs ∧
    ∃ d, fromBig bits signed (toBig c) = .ok d ∧ AbstractInt.eq d c = true := by
  obtain ⟨_, h1, h2⟩ := proper_of_reach hb h
  refine ⟨(inRange_iff _ _ _).mp h1, by omega, _, fromBig_ok h1, ?_⟩
  simp [AbstractInt.eq, toBig_enc]

/-- C20 (refutation of "every value up to `max()` is accepted"): the value `max()` reports is rejected by
every constructor, for every width. -/
theorem C20_max_refuted (bits : Nat) (signed : Bool) :
    AbstractInt.max bits = 2 ^ bits - 1 ∧ fromBig bits signed (AbstractInt.max bits) = panic := by
  refine ⟨rfl, fromBig_panic ?_⟩
  intro h; have := h.1; unfold AbstractInt.max at this; omega

example : ∃ c, fromBig 256 false (2 ^ 255 - 19) = .ok c ∧ toBig c = 2 ^ 255 - 19 :=
  (C20_convert 256 false (2 ^ 255 - 19)).1 (by decide +kernel)
example : fromBig 64 false (-1) = panic := (C20_convert 64 false (-1)).2 (by decide)
example : ∃ c, fromBig 64 true (-(2 ^ 64 - 1)) = .ok c ∧ toBig c = -(2 ^ 64 - 1) :=
  (C20_convert 64 true (-(2 ^ 64 - 1))).1 (by decide)
example : fromLiteral 8 false 255#128 = panic := by decide

/-! ## C21 arithmetic -/

/-- C21: sums, differences and products are exact or the call panics. -/
theorem C21_ring (bits : Nat) (signed : Bool) (x y : Canvas) :
    Exactly bits signed (AbstractInt.add bits signed x y) (toBig x + toBig y) ∧
    Exactly bits signed (AbstractInt.sub bits signed x y) (toBig x - toBig y) ∧
    Exactly bits signed (AbstractInt.mul bits signed x y) (toBig x * toBig y) :=
  ⟨exactly_guarded _ _ _, exactly_fromBig _ _ _, exactly_guarded _ _ _⟩

/-- Specification of truncating division: `a = q·b + r`, `|r| < |b|`, `r` has the sign of `a`. -/
def TruncDiv (a b q r : Int) : Prop :=
  a = q * b + r ∧ r.natAbs < b.natAbs ∧ (0 ≤ a → 0 ≤ r) ∧ (a ≤ 0 → r ≤ 0)

theorem truncDiv_spec (a b : Int) (hb : b ≠ 0) : TruncDiv a b (a.tdiv b) (a.tmod b) := by
  refine ⟨?_, ?_, ?_, ?_⟩
  · have := Int.mul_tdiv_add_tmod a b
    rw [Int.mul_comm] at this; exact this.symm
  · rw [Int.natAbs_tmod]; exact Nat.mod_lt _ (by omega)
  · intro h; exact Int.tmod_nonneg _ h
  · intro h
    have := Int.tmod_nonneg (-b) (a := -a) (by omega)
    rw [Int.tmod_neg, Int.neg_tmod] at this; omega

/-- C21: division and remainder truncate towards zero; they panic for a zero divisor and when the result
is not representable. -/
theorem C21_div_rem (bits : Nat) (signed : Bool) (x y : Canvas) :
    (toBig y = 0 → AbstractInt.div bits signed x y = panic ∧ AbstractInt.rem bits signed x y = panic) ∧
    (toBig y ≠ 0 → ∃ q r, TruncDiv (toBig x) (toBig y) q r ∧
      Exactly bits signed (AbstractInt.div bits signed x y) q ∧
      Exactly bits signed (AbstractInt.rem bits signed x y) r) := by
  constructor
  · intro h; rw [AbstractInt.div, AbstractInt.rem, if_pos h, if_pos h]; exact ⟨rfl, rfl⟩
  · intro h
    refine ⟨_, _, truncDiv_spec _ _ h, ?_, ?_⟩
    · rw [AbstractInt.div, if_neg h]; exact exactly_fromBig _ _ _
    · rw [AbstractInt.rem, if_neg h]; exact exactly_fromBig _ _ _

/-- C21: for unsigned values, division by a non-zero value and remainder never panic. -/
theorem C21_div_rem_unsigned {bits : Nat} (hb : 0 < bits) {x y : Canvas} (hx : Reach bits false x)
    (hy : Reach bits false y) (h0 : toBig y ≠ 0) :
    ∃ q r, AbstractInt.div bits false x y = .ok q ∧ AbstractInt.rem bits false x y = .ok r ∧
      toBig q = toBig x / toBig y ∧ toBig r = toBig x % toBig y := by
  obtain ⟨_, ⟨hx1, hx2⟩, _⟩ := proper_of_reach hb hx
  obtain ⟨_, ⟨hy1, hy2⟩, _⟩ := proper_of_reach hb hy
  have hx0 : 0 ≤ toBig x := by rcases hx2 with h | h; exact h; simp at h
  have hy0 : 0 ≤ toBig y := by rcases hy2 with h | h; exact h; simp at h
  rw [AbstractInt.div, if_neg h0, AbstractInt.rem, if_neg h0, Int.tdiv_eq_ediv_of_nonneg hx0,
    Int.tmod_eq_emod_of_nonneg hx0]
  have h1 : toBig x / toBig y ≤ toBig x := Int.ediv_le_self _ hx0
  have h2 : toBig x % toBig y < toBig y := Int.emod_lt_of_pos _ (by omega)
  have h3 : 0 ≤ toBig x / toBig y := Int.ediv_nonneg hx0 hy0
  have h4 : 0 ≤ toBig x % toBig y := Int.emod_nonneg _ h0
  exact ⟨_, _, fromBig_ok ⟨by omega, Or.inl h3⟩, fromBig_ok ⟨by omega, Or.inl h4⟩, toBig_enc _ _, toBig_enc _ _⟩

theorem modpow_spec (a : Int) (e : Nat) (m : Int) (hm : m ≠ 0) : modpow a e m = .ok (Int.fmod (a ^ e) m) := by
  rw [modpow, require_true (by omega), bind_ok, require_true hm, bind_ok]
  simp only [Int.natAbs_natCast, powMod_eq]
  have habs : a.natAbs ^ e = (a ^ e).natAbs := (Int.natAbs_pow a e).symm
  rw [habs]
  have hsgn : (a < 0 ∧ (e : Int) % 2 = 1) ↔ a ^ e < 0 := by
    constructor
    · rintro ⟨h1, h2⟩
      exact Odd.pow_neg (Nat.odd_iff.mpr (by omega)) h1
    · intro h
      refine ⟨?_, ?_⟩
      · by_contra h0
        exact absurd (pow_nonneg (Int.not_lt.mp h0) e) (by omega)
      · by_contra h0
        have : Even e := Nat.even_iff.mpr (by omega)
        exact absurd (this.pow_nonneg a) (by omega)
  generalize hA : a ^ e = A at *
  simp only [hsgn]
  have hr : (A.natAbs % m.natAbs : Nat) < m.natAbs := Nat.mod_lt _ (by omega)
  have hfm : ∀ q r : Int, A = q * m + r → (0 < m ∧ 0 ≤ r ∧ r < m ∨ m < 0 ∧ m < r ∧ r ≤ 0) → A.fmod m = r := by
    intro q r h1 h2
    rcases h2 with ⟨h, h3, h4⟩ | ⟨h, h3, h4⟩
    · rw [Int.fmod_eq_emod_of_nonneg _ (by omega), h1, Int.mul_comm, Int.mul_add_emod_self_left, Int.emod_eq_of_lt h3 h4]
    · have : A.fmod m = -((-A).fmod (-m)) := by rw [Int.neg_fmod_neg]; omega
      rw [this, Int.fmod_eq_emod_of_nonneg _ (by omega), h1,
        show -(q * m + r) = (-m) * q + (-r) by ring, Int.mul_add_emod_self_left, Int.emod_eq_of_lt (by omega) (by omega)]
      omega
  have hk : (A.natAbs : Int) = (m.natAbs : Int) * ((A.natAbs / m.natAbs : Nat) : Int) + ((A.natAbs % m.natAbs : Nat) : Int) := by
    have := Nat.div_add_mod A.natAbs m.natAbs
    exact_mod_cast this.symm
  generalize (A.natAbs / m.natAbs : Nat) = k at hk
  generalize A.natAbs % m.natAbs = ρ at hk hr
  by_cases hA0 : A < 0
  · have hA1 : A = -(A.natAbs : Int) := by omega
    by_cases hm0 : m < 0
    · have hm1 : m = -(m.natAbs : Int) := by omega
      rw [hfm k (-ρ) (by rw [hA1, hk, hm1]; simp; ring) (by omega)]
      simp only [hA0, hm0, decide_true]
      split
      · rename_i h; subst h; rfl
      · rfl
    · have hm1 : m = (m.natAbs : Int) := by omega
      simp only [hA0, hm0, decide_true, decide_false]
      split
      · rename_i h
        subst h
        rw [hfm (-k) 0 (by rw [hA1, hk, hm1]; simp; ring) (by omega)]
      · rw [hfm (-k - 1) (m.natAbs - ρ) (by rw [hA1, hk, hm1]; simp; ring) (by omega)]
  · have hA1 : A = (A.natAbs : Int) := by omega
    by_cases hm0 : m < 0
    · have hm1 : m = -(m.natAbs : Int) := by omega
      simp only [hA0, hm0, decide_true, decide_false]
      split
      · rename_i h
        subst h
        rw [hfm (-k) 0 (by rw [hA1, hk, hm1]; simp; ring) (by omega)]
      · rw [hfm (-k - 1) (-(m.natAbs - ρ)) (by rw [hA1, hk, hm1]; simp; ring) (by omega)]
    · have hm1 : m = (m.natAbs : Int) := by omega
      rw [hfm k ρ (by rw [hA1, hk, hm1]; simp; ring) (by omega)]
      simp only [hA0, hm0, decide_false]
      split
      · rename_i h; subst h; rfl
      · rfl

/-- C21: modular powers.  The result is the floored residue of the exact power (in `[0, m)` for a positive
modulus); a negative exponent or a zero modulus panics. -/
theorem C21_pow_felem (bits : Nat) (signed : Bool) (x e m : Canvas) :
    (0 ≤ toBig e → toBig m ≠ 0 →
      Exactly bits signed (AbstractInt.powFelem bits signed x e m) (Int.fmod (toBig x ^ (toBig e).toNat) (toBig m))) ∧
    (toBig e < 0 ∨ toBig m = 0 → AbstractInt.powFelem bits signed x e m = panic) := by
  constructor
  · intro he hm
    have : modpow (toBig x) (toBig e) (toBig m) = .ok (Int.fmod (toBig x ^ (toBig e).toNat) (toBig m)) := by
      rw [← modpow_spec _ _ _ hm, Int.toNat_of_nonneg he]
    rw [AbstractInt.powFelem, this, bind_ok]
    exact exactly_fromBig _ _ _
  · intro h
    rw [AbstractInt.powFelem, modpow]
    by_cases he : 0 ≤ toBig e
    · rw [require_true he, bind_ok, require_false (by omega), bind_panic, bind_panic]
    · rw [require_false he, bind_panic, bind_panic]

/-- C21: modular powers with a `u128` exponent, for a positive modulus; the exponent must be representable
in the type itself. -/
theorem C21_pow (bits : Nat) (signed : Bool) (x : Canvas) (e : BitVec 128) (m : Canvas) (hm : 0 < toBig m) :
    (Representable bits signed e.toNat →
      Exactly bits signed (AbstractInt.pow bits signed x e m) (toBig x ^ e.toNat % toBig m)) ∧
    (¬ Representable bits signed e.toNat → AbstractInt.pow bits signed x e m = panic) := by
  constructor
  · intro he
    rw [← inRange_iff] at he
    rw [AbstractInt.pow, fromBig_ok he, bind_ok]
    have := (C21_pow_felem bits signed x (enc bits e.toNat) m).1 (by rw [toBig_enc]; omega) (by omega)
    rw [toBig_enc, Int.toNat_natCast, Int.fmod_eq_emod_of_nonneg _ (by omega)] at this
    exact this
  · intro he
    rw [← inRange_iff] at he
    rw [AbstractInt.pow, fromBig_panic he, bind_panic]

/-- C21: equality and order agree with the integers. -/
theorem C21_order (x y : Canvas) :
    (AbstractInt.eq x y = true ↔ toBig x = toBig y) ∧ (AbstractInt.lt x y = true ↔ toBig x < toBig y) := by
  simp [AbstractInt.eq, AbstractInt.lt]

example : ∃ c, AbstractInt.add 8 false (enc 8 200) (enc 8 54) = .ok c ∧ toBig c = 254 := by
  have := (C21_ring 8 false (enc 8 200) (enc 8 54)).1.1
  rw [toBig_enc, toBig_enc] at this
  exact this (by decide)
example : AbstractInt.sub 64 false (enc 64 3) (enc 64 4) = panic := by
  have := (C21_ring 64 false (enc 64 3) (enc 64 4)).2.1.2
  rw [toBig_enc, toBig_enc] at this
  exact this (by decide)
example : AbstractInt.div 8 true (enc 8 (-255)) (enc 8 (-1)) = panic := by decide
example : ∃ c, AbstractInt.pow 64 true (enc 64 (-3)) 3#128 (enc 64 10) = .ok c ∧ toBig c = 3 := by
  have := ((C21_pow 64 true (enc 64 (-3)) 3#128 (enc 64 10)) (by rw [toBig_enc]; decide)).1 (by decide)
  rw [toBig_enc, toBig_enc] at this
  exact this.1 (by decide)

/-! ## C22 codecs -/

/-- C22: `bit(i)` is bit `i` of the (two's complement of the) value and panics exactly when `i` is beyond
the byte array. -/
theorem C22_bit {bits : Nat} {signed : Bool} (hb : 0 < bits) {c : Canvas} (h : Reach bits signed c) (i : Nat) :
    (i < 8 * ((bits + 7) / 8) → AbstractInt.bit c i = .ok (decide (toBig c / 2 ^ i % 2 = 1))) ∧
    (8 * ((bits + 7) / 8) ≤ i → AbstractInt.bit c i = panic) := by
  obtain ⟨hl, _, _⟩ := proper_of_reach hb h
  unfold AbstractInt.bit
  rw [hl]
  constructor
  · intro hi
    rw [require_true (by unfold nb; omega), bind_ok, Int.shiftRight_eq_div_pow]
    have hc := cast_two_pow i
    rw [hc]
  · intro hi
    rw [require_false (by unfold nb; omega), bind_panic]

/-- C22: for a non-negative value, `bit(i)` is the binary digit of weight `2^i`. -/
theorem C22_bit_nat {bits : Nat} {signed : Bool} (hb : 0 < bits) {c : Canvas} (h : Reach bits signed c) (i k : Nat)
    (hk : toBig c = k) (hi : i < 8 * ((bits + 7) / 8)) : AbstractInt.bit c i = .ok (k.testBit i) := by
  rw [(C22_bit hb h i).1 hi, hk, Nat.testBit_eq_decide_div_mod_eq]
  congr 2
  apply propext
  rw [← cast_two_pow, ← Int.natCast_ediv]
  omega

/-- C22: `from_le_bytes` is the base-256 value. -/
theorem C22_from_le_bytes (bits : Nat) (v : List U8) :
    Exactly bits false (AbstractInt.fromLeBytes bits v) (base256 v) := by
  rw [AbstractInt.fromLeBytes, leNat_eq_base256]; exact exactly_fromBig _ _ _

theorem base256_lt (v : List U8) : base256 v < 256 ^ v.length := by
  induction v with
  | nil => simp [base256]
  | cons b bs ih =>
    have := b.isLt
    simp only [base256, List.length_cons, Nat.pow_succ]; omega

/-- C22: `to_le_bytes` decodes to the value, fits the type, and is the shortest non-empty such string. -/
theorem C22_to_le_bytes {bits : Nat} (hb : 0 < bits) {c : Canvas} (h : Reach bits false c) :
    (base256 (AbstractInt.toLeBytes c) : Int) = toBig c ∧
    0 < (AbstractInt.toLeBytes c).length ∧ (AbstractInt.toLeBytes c).length ≤ (bits + 7) / 8 ∧
    (∀ v : List U8, v ≠ [] → (base256 v : Int) = toBig c → (AbstractInt.toLeBytes c).length ≤ v.length) ∧
    (∃ d, AbstractInt.fromLeBytes bits (AbstractInt.toLeBytes c) = .ok d ∧ AbstractInt.eq d c = true) := by
  obtain ⟨_, hr, _⟩ := proper_of_reach hb h
  have h0 : 0 ≤ toBig c := by rcases hr.2 with h | h; exact h; simp at h
  have hv : (base256 (AbstractInt.toLeBytes c) : Int) = toBig c := by
    rw [AbstractInt.toLeBytes, ← leNat_eq_base256, leNat_bytesLe]; omega
  refine ⟨hv, ?_, ?_, ?_, ?_⟩
  · rw [AbstractInt.toLeBytes, length_bytesLe]; omega
  · exact fits_of_inRange hr
  · intro v hne hval
    have hl : 0 < v.length := List.length_pos_iff.mpr hne
    rw [AbstractInt.toLeBytes, length_bytesLe_le hl]
    have := base256_lt v
    omega
  · rw [AbstractInt.fromLeBytes, leNat_eq_base256, hv]
    exact ⟨_, fromBig_ok hr, by simp [AbstractInt.eq, toBig_enc]⟩

/-- Specification: value of a list of hexadecimal digits, most significant first. -/
def base16 (ds : List Nat) : Nat := ds.foldl (fun a d => 16 * a + d) 0

theorem foldl16_append (ds : List Nat) (a : Nat) :
    ds.foldl (fun a d => 16 * a + d) a = 16 ^ ds.length * a + base16 ds := by
  induction ds generalizing a with
  | nil => simp [base16]
  | cons d ds ih =>
    rw [base16, List.foldl_cons, List.foldl_cons, ih, ih (16 * 0 + d), List.length_cons, Nat.pow_succ]; ring

theorem hexBytes_value (s : List (U8 × U8)) (v : List (Nat × Nat))
    (h : List.Forall₂ (fun c d => hexVal c.1 = some d.1 ∧ hexVal c.2 = some d.2) s v) :
    ∃ bs, Hex.hexStringToBytes (s.flatMap fun c => [c.1, c.2]) = .ok bs ∧
      natOfBe bs = base16 (v.flatMap fun d => [d.1, d.2]) := by
  have h1 := C17_from_hex s v h
  rw [Hex.seqFromHex] at h1
  obtain ⟨bs, hbs, h2⟩ := bind_eq_ok.mp h1
  rw [Hacspec.Seq.fromVec, map_id_of_forall (f := classify) (fun _ _ => rfl)] at h2
  cases h2
  refine ⟨_, hbs, ?_⟩
  clear hbs h1
  have hlt : ∀ c : U8, ∀ d, hexVal c = some d → d < 16 := by
    intro c; rw [← digit_eq_hexVal]; unfold Hex.digit
    intro d hd
    split at hd
    · simp at hd; omega
    · split at hd
      · simp at hd; omega
      · split at hd
        · simp at hd; omega
        · simp at hd
  induction h with
  | nil => rfl
  | @cons c d s v hc hsv ih =>
    have h1 := hlt _ _ hc.1
    have h2 := hlt _ _ hc.2
    have hrec : natOfBe ((v.map fun d => BitVec.ofNat 8 (16 * d.1 + d.2)) : List U8) = base16 (v.flatMap fun d => [d.1, d.2]) := ih
    rw [List.map_cons, natOfBe, List.reverse_cons, leNat_append]
    rw [natOfBe] at hrec
    rw [hrec, List.flatMap_cons]
    conv => rhs; rw [base16, List.foldl_append, foldl16_append]
    have hlen : (v.flatMap fun d => [d.1, d.2]).length = 2 * v.length := by
      clear ih hrec hsv
      induction v with
      | nil => rfl
      | cons a v ih => simp only [List.flatMap_cons, List.length_append, List.length_cons, List.length_nil, ih]; omega
    rw [hlen, Nat.pow_mul]
    simp only [leNat, BitVec.toNat_ofNat, List.length_reverse, List.length_map, List.foldl_cons, List.foldl_nil]
    rw [Nat.mod_eq_of_lt (by omega)]
    ring

/-- C22: `from_hex` of unsigned types is the base-16 value of the digits; odd lengths panic. -/
theorem C22_from_hex (bits : Nat) (s : List (U8 × U8)) (v : List (Nat × Nat))
    (h : List.Forall₂ (fun c d => hexVal c.1 = some d.1 ∧ hexVal c.2 = some d.2) s v) :
    Exactly bits false (AbstractInt.fromHex bits (s.flatMap fun c => [c.1, c.2]))
      (base16 (v.flatMap fun d => [d.1, d.2])) := by
  obtain ⟨bs, h1, h2⟩ := hexBytes_value s v h
  rw [AbstractInt.fromHex, h1, bind_ok, h2]
  exact exactly_fromBig _ _ _

theorem C22_from_hex_odd (bits : Nat) (s : List U8) (h : s.length % 2 = 1) : AbstractInt.fromHex bits s = panic := by
  rw [AbstractInt.fromHex, hex_odd (s.length / 2) s (by omega), bind_panic]

/-- C22: `from_hex` of signed types with an explicit sign. -/
theorem C22_from_hex_signed (bits : Nat) (s : List (U8 × U8)) (v : List (Nat × Nat))
    (h : List.Forall₂ (fun c d => hexVal c.1 = some d.1 ∧ hexVal c.2 = some d.2) s v) :
    Exactly bits true (fromHexSigned bits [43#8] (s.flatMap fun c => [c.1, c.2]))
      (base16 (v.flatMap fun d => [d.1, d.2])) ∧
    Exactly bits true (fromHexSigned bits [45#8] (s.flatMap fun c => [c.1, c.2]))
      (-(base16 (v.flatMap fun d => [d.1, d.2]))) ∧
    (∀ g, g ≠ [43#8] → g ≠ [45#8] → g ≠ [] →
      fromHexSigned bits g (s.flatMap fun c => [c.1, c.2]) = panic) := by
  obtain ⟨bs, h1, h2⟩ := hexBytes_value s v h
  refine ⟨?_, ?_, ?_⟩
  · rw [fromHexSigned, show parseSign [43#8] = .ok .plus from rfl, bind_ok, h1, bind_ok]
    simp only [toBig, h2]; exact exactly_fromBig _ _ _
  · rw [fromHexSigned, show parseSign [45#8] = .ok .minus from rfl, bind_ok, h1, bind_ok]
    simp only [toBig, h2]; exact exactly_fromBig _ _ _
  · intro g h1 h2 h3
    rw [fromHexSigned, parseSign, if_neg h1, if_neg h2, if_neg h3, bind_panic]

/-- C22 (refutation for the accepted sign `""`): every hexadecimal string is read as zero. -/
theorem C22_from_hex_no_sign_refuted {bits : Nat} (hb : 0 < bits) (s : List U8) (bs : List U8)
    (h : Hex.hexStringToBytes s = .ok bs) :
    ∃ c, fromHexSigned bits [] s = .ok c ∧ toBig c = 0 := by
  rw [fromHexSigned, show parseSign [] = .ok .noSign from rfl, bind_ok, h, bind_ok]
  have hc := cast_two_pow bits
  have h2 : 1 < 2 ^ bits := Nat.one_lt_two_pow (by omega)
  exact ⟨_, fromBig_ok ⟨by simp only [toBig]; omega, Or.inl (by simp [toBig])⟩, by rw [toBig_enc]; rfl⟩

example : ∃ c, AbstractInt.fromLeBytes 16 [0x34#8, 0x12#8] = .ok c ∧ toBig c = 0x1234 :=
  (C22_from_le_bytes 16 [0x34#8, 0x12#8]).1 (by decide)
example : AbstractInt.fromLeBytes 8 [0x34#8, 0x12#8] = panic :=
  (C22_from_le_bytes 8 [0x34#8, 0x12#8]).2 (by decide)
example : ∃ c, AbstractInt.fromHex 16 [102#8, 65#8, 48#8, 49#8] = .ok c ∧ toBig c = 0xfa01 :=
  (C22_from_hex 16 [(102#8, 65#8), (48#8, 49#8)] [(15, 10), (0, 1)] (by
    refine .cons ⟨by decide +kernel, by decide +kernel⟩ (.cons ⟨by decide +kernel, by decide +kernel⟩ .nil))).1
    (by decide)
example : ∃ c, fromHexSigned 16 [] [102#8, 65#8] = .ok c ∧ toBig c = 0 :=
  C22_from_hex_no_sign_refuted (by decide) _ [0xfa#8] (by decide)

/-! ## C23 signed literals -/

/-- C23: non-negative literals are represented exactly or rejected. -/
theorem C23_nonneg_partial (bits : Nat) (signed : Bool) (x : BitVec 128) (hx : 0 ≤ x.toInt) :
    Exactly bits signed (fromSignedLiteral bits signed x) x.toInt := by
  have h : (x.toNat : Int) = x.toInt := by
    have := BitVec.toInt_eq_toNat_cond x
    have hlt := x.isLt
    split at this <;> omega
  rw [← h]
  exact exactly_guarded _ _ _

/-- C23 (refutation): a negative literal never yields its value; it panics or yields `x + 2^128`, and for
every signed type wider than 128 bits it does yield `x + 2^128`. -/
theorem C23_negative_refuted (bits : Nat) (signed : Bool) (x : BitVec 128) (hx : x.toInt < 0) :
    (∀ c, fromSignedLiteral bits signed x = .ok c → toBig c = x.toInt + 2 ^ 128) ∧
    (128 < bits → ∃ c, fromSignedLiteral bits signed x = .ok c) := by
  have h : (x.toNat : Int) = x.toInt + 2 ^ 128 := by
    have := BitVec.toInt_eq_toNat_cond x
    have hlt := x.isLt
    split at this <;> omega
  have he := exactly_guarded bits signed x.toNat
  constructor
  · intro c hc
    by_cases hr : Representable bits signed x.toNat
    · obtain ⟨d, hd, hv⟩ := he.1 hr
      rw [fromSignedLiteral] at hc
      rw [hd] at hc; cases hc
      rw [hv, h]
    · rw [fromSignedLiteral, he.2 hr] at hc; simp at hc
  · intro hb
    have h2 : 2 ^ 129 ≤ 2 ^ bits := Nat.pow_le_pow_right (by decide) hb
    have hc := cast_two_pow bits
    have hlt := x.isLt
    have hr : InRange bits signed (x.toNat : Int) := ⟨by omega, Or.inl (by omega)⟩
    obtain ⟨d, hd, _⟩ := he.1 ((inRange_iff _ _ _).mp hr)
    exact ⟨d, hd⟩

example : ∃ c, fromSignedLiteral 256 true (BitVec.ofInt 128 (-1)) = .ok c ∧ toBig c = 2 ^ 128 - 1 := by
  obtain ⟨c, hc⟩ := (C23_negative_refuted 256 true (BitVec.ofInt 128 (-1)) (by decide)).2 (by decide)
  exact ⟨c, hc, by rw [(C23_negative_refuted 256 true (BitVec.ofInt 128 (-1)) (by decide)).1 c hc]; decide⟩
example : ∃ c, fromSignedLiteral 64 true 5#128 = .ok c ∧ toBig c = 5 :=
  (C23_nonneg_partial 64 true 5#128 (by decide)).1 (by decide)

end Hacspec.Props
