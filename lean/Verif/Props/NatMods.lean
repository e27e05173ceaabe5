import Verif.Lemmas.Primes
import Verif.Props.AbstractInts
import Mathlib.FieldTheory.Finite.Basic

/-! # Property theorems C24–C27: modular integers -/

namespace Hacspec.Props

open SecretInt AbstractInt NatMod

variable {T : NatTy}

/-! ## Reachable values -/

/-- Values of a `nat_mod` type obtainable through its API; `lit` says which literals may be used with
`from_literal`/`from_signed_literal`. -/
inductive ReachMod (T : NatTy) (lit : BitVec 128 → Prop) : Canvas → Prop
  | default : ReachMod T lit (NatMod.default T)
  | ofBase (x c) (hx : Reach T.bits false x) (h : fromCanvas T x = .ok c) : ReachMod T lit c
  | hex (s c) (h : NatMod.fromHex T s = .ok c) : ReachMod T lit c
  | leBytes (v c) (h : NatMod.fromLeBytes T v = .ok c) : ReachMod T lit c
  | literal (x c) (hx : lit x) (h : NatMod.fromLiteral T x = .ok c) : ReachMod T lit c
  | signedLiteral (x c) (hx : lit x) (h : NatMod.fromSignedLiteral T x = .ok c) : ReachMod T lit c
  | add (x y c) (hx : ReachMod T lit x) (hy : ReachMod T lit y) (h : NatMod.add T x y = .ok c) : ReachMod T lit c
  | sub (x y c) (hx : ReachMod T lit x) (hy : ReachMod T lit y) (h : NatMod.sub T x y = .ok c) : ReachMod T lit c
  | mul (x y c) (hx : ReachMod T lit x) (hy : ReachMod T lit y) (h : NatMod.mul T x y = .ok c) : ReachMod T lit c
  | div (x y c) (hx : ReachMod T lit x) (hy : ReachMod T lit y) (h : NatMod.div T x y = .ok c) : ReachMod T lit c
  | rem (x y c) (hx : ReachMod T lit x) (hy : ReachMod T lit y) (h : NatMod.rem T x y = .ok c) : ReachMod T lit c
  | inv (x c) (hx : ReachMod T lit x) (h : NatMod.inv T x = .ok c) : ReachMod T lit c
  | powFelem (x e c) (hx : ReachMod T lit x) (he : ReachMod T lit e) (h : NatMod.powFelem T x e = .ok c) :
      ReachMod T lit c
  | pow (x e c) (hx : ReachMod T lit x) (h : NatMod.pow T x e = .ok c) : ReachMod T lit c

/-- The value of a modular integer, as observed through `Into<BigUint>`. -/
abbrev val (c : Canvas) : Nat := toBigUint c

theorem wf_pos_bits (hT : T.WF) : 0 < T.bits := by
  have h1 := hT.1
  have h2 := hT.2
  rcases Nat.eq_zero_or_pos T.bits with h | h
  · rw [h] at h2; simp at h2
  · exact h

theorem toBig_of_proper {bits : Nat} {c : Canvas} (h : Proper bits false c) : toBig c = (toBigUint c : Int) := by
  have h0 : 0 ≤ toBig c := by rcases h.2.1.2 with h | h; exact h; simp at h
  have := h.2.2
  omega

/-- Anything produced by reducing a canvas is proper and smaller than the modulus. -/
theorem reduced_of_fromCanvas (hT : T.WF) {x c : Canvas} (h : fromCanvas T x = .ok c) :
    Proper T.bits false c ∧ val c < T.n := by
  rw [fromCanvas, maxC_ok hT, bind_ok, AbstractInt.rem, toBig_enc, if_neg (by have := hT.1; omega)] at h
  have hp := proper_fromBig h
  refine ⟨hp, ?_⟩
  rw [fromBig_eq] at h
  split at h
  · rename_i hr
    cases h
    rw [val, toBigUint, natOfBe_enc, Int.natAbs_tmod]
    exact Nat.mod_lt _ (by have := hT.1; simpa using this)
  · simp at h

theorem reduced_of_fromNat (hT : T.WF) {d : Nat} {c : Canvas} (h : fromNat T d = .ok c) :
    Proper T.bits false c ∧ val c < T.n := by
  obtain ⟨_, _, h⟩ := bind_eq_ok.mp h; exact reduced_of_fromCanvas hT h

theorem literal_value (hT : T.WF) {x : BitVec 128} {c : Canvas} (h : NatMod.fromLiteral T x = .ok c) :
    Proper T.bits false c ∧ val c = x.toNat ∧ x.toNat ≤ T.n := by
  rw [NatMod.fromLiteral, maxC_ok hT, bind_ok, toBigUint_enc] at h
  split at h
  · simp at h
  · have hp := proper_fromBig h
    refine ⟨hp, ?_, by omega⟩
    rw [fromBigUint, fromBig_eq] at h
    split at h
    · cases h; exact toBigUint_enc _ _
    · simp at h

theorem reach_proper (hT : T.WF) {lit : BitVec 128 → Prop} {c : Canvas} (h : ReachMod T lit c) :
    Proper T.bits false c ∧ (val c < T.n ∨ ∃ x : BitVec 128, lit x ∧ x.toNat = T.n ∧ val c = T.n) := by
  have hlit : ∀ {x : BitVec 128} {c : Canvas}, lit x → NatMod.fromLiteral T x = .ok c →
      Proper T.bits false c ∧ (val c < T.n ∨ ∃ x : BitVec 128, lit x ∧ x.toNat = T.n ∧ val c = T.n) := by
    intro x c hx h
    obtain ⟨h1, h2, h3⟩ := literal_value hT h
    refine ⟨h1, ?_⟩
    by_cases hn : x.toNat = T.n
    · right; exact ⟨x, hx, hn, by omega⟩
    · left; omega
  have hred : ∀ {c : Canvas}, Proper T.bits false c ∧ val c < T.n →
      Proper T.bits false c ∧ (val c < T.n ∨ ∃ x : BitVec 128, lit x ∧ x.toNat = T.n ∧ val c = T.n) :=
    fun h => ⟨h.1, Or.inl h.2⟩
  cases h with
  | default =>
    have hp := proper_default false (wf_pos_bits hT)
    refine hred ⟨hp, ?_⟩
    have h0 := toBig_of_proper hp
    rw [toBig_default] at h0
    have := hT.1
    unfold val NatMod.default; omega
  | ofBase x c _ h => exact hred (reduced_of_fromCanvas hT h)
  | hex s c h => obtain ⟨_, _, h⟩ := bind_eq_ok.mp h; exact hred (reduced_of_fromCanvas hT h)
  | leBytes v c h => obtain ⟨_, _, h⟩ := bind_eq_ok.mp h; exact hred (reduced_of_fromCanvas hT h)
  | literal x c hx h => exact hlit hx h
  | signedLiteral x c hx h => exact hlit hx h
  | add x y c _ _ h =>
    obtain ⟨_, _, h⟩ := bind_eq_ok.mp h; obtain ⟨_, _, h⟩ := bind_eq_ok.mp h; exact hred (reduced_of_fromNat hT h)
  | sub x y c _ _ h =>
    obtain ⟨_, _, h⟩ := bind_eq_ok.mp h; obtain ⟨_, _, h⟩ := bind_eq_ok.mp h
    obtain ⟨_, _, h⟩ := bind_eq_ok.mp h; exact hred (reduced_of_fromNat hT h)
  | mul x y c _ _ h =>
    obtain ⟨_, _, h⟩ := bind_eq_ok.mp h; obtain ⟨_, _, h⟩ := bind_eq_ok.mp h; exact hred (reduced_of_fromNat hT h)
  | div x y c _ _ h =>
    obtain ⟨_, _, h⟩ := bind_eq_ok.mp h; obtain ⟨_, _, h⟩ := bind_eq_ok.mp h
    obtain ⟨_, _, h⟩ := bind_eq_ok.mp h; exact hred (reduced_of_fromNat hT h)
  | rem x y c _ _ h =>
    obtain ⟨_, _, h⟩ := bind_eq_ok.mp h; obtain ⟨_, _, h⟩ := bind_eq_ok.mp h
    obtain ⟨_, _, h⟩ := bind_eq_ok.mp h; exact hred (reduced_of_fromNat hT h)
  | inv x c _ h =>
    obtain ⟨_, _, h⟩ := bind_eq_ok.mp h; obtain ⟨_, _, h⟩ := bind_eq_ok.mp h; exact hred (reduced_of_fromCanvas hT h)
  | powFelem x e c _ _ h =>
    obtain ⟨_, _, h⟩ := bind_eq_ok.mp h; obtain ⟨_, _, h⟩ := bind_eq_ok.mp h; exact hred (reduced_of_fromCanvas hT h)
  | pow x e c _ h =>
    obtain ⟨_, _, h⟩ := bind_eq_ok.mp h; obtain ⟨_, _, h⟩ := bind_eq_ok.mp h; exact hred (reduced_of_fromCanvas hT h)

/-! ## C24 reducedness -/

/-- C24: as long as the modulus itself is not used as a literal, every value obtainable through the API is
smaller than the modulus, and `==` is equality of residues. -/
theorem C24_reduced_partial (hT : T.WF) {c d : Canvas} (hc : ReachMod T (fun x => x.toNat ≠ T.n) c)
    (hd : ReachMod T (fun x => x.toNat ≠ T.n) d) :
    val c < T.n ∧ (NatMod.eq c d = true ↔ val c % T.n = val d % T.n) := by
  have red : ∀ {c}, ReachMod T (fun x => x.toNat ≠ T.n) c → Proper T.bits false c ∧ val c < T.n := by
    intro c hc
    obtain ⟨h1, h2 | ⟨x, hx, he, _⟩⟩ := reach_proper hT hc
    · exact ⟨h1, h2⟩
    · exact absurd he hx
  obtain ⟨h1, h2⟩ := red hc
  obtain ⟨h3, h4⟩ := red hd
  refine ⟨h2, ?_⟩
  rw [NatMod.eq, AbstractInt.eq, toBig_of_proper h1, toBig_of_proper h3, Nat.mod_eq_of_lt h2, Nat.mod_eq_of_lt h4]
  simp

/-- C24: with unrestricted literals the invariant is `≤ n`. -/
theorem C24_bounded (hT : T.WF) {c : Canvas} (hc : ReachMod T (fun _ => True) c) : val c ≤ T.n := by
  obtain ⟨_, h | ⟨_, _, _, h⟩⟩ := reach_proper hT hc <;> omega

/-- C24: `from_literal` and `from_signed_literal` give the literal (read as an unsigned number), unreduced, if it is at
most the modulus, and panic otherwise. -/
theorem C24_literals (hT : T.WF) (x : BitVec 128) :
    (x.toNat ≤ T.n → (∃ c, NatMod.fromLiteral T x = .ok c ∧ val c = x.toNat) ∧
      ∃ c, NatMod.fromSignedLiteral T x = .ok c ∧ val c = x.toNat) ∧
    (T.n < x.toNat → NatMod.fromLiteral T x = panic ∧ NatMod.fromSignedLiteral T x = panic) := by
  constructor
  · intro h
    exact ⟨⟨_, fromLiteral_enc hT x h, toBigUint_tenc _⟩, ⟨_, fromLiteral_enc hT x h, toBigUint_tenc _⟩⟩
  · intro h
    have : NatMod.fromLiteral T x = panic := by
      rw [NatMod.fromLiteral, maxC_ok hT, bind_ok, toBigUint_enc, if_pos (by omega)]
    exact ⟨this, this⟩

/-- C24 (refutation): `from_literal` of the modulus is accepted, not reduced, and differs from zero although
it is the same residue. -/
theorem C24_literal_refuted (hT : T.WF) (x : BitVec 128) (hx : x.toNat = T.n) :
    ∃ c, NatMod.fromLiteral T x = .ok c ∧ val c = T.n ∧ NatMod.eq c (NatMod.default T) = false := by
  have hn := hT.1
  refine ⟨_, fromLiteral_enc hT x (by omega), ?_, ?_⟩
  · rw [val, toBigUint_tenc, hx]
  · rw [NatMod.eq, AbstractInt.eq, toBig_tenc, NatMod.default, toBig_default]
    simp; omega

example : (NatTy.mk 8 13).WF := by decide
example : ∃ c, NatMod.fromLiteral ⟨8, 13⟩ 13#128 = .ok c ∧ val c = 13 ∧ NatMod.eq c (NatMod.default ⟨8, 13⟩) = false :=
  C24_literal_refuted (by decide) 13#128 rfl

/-! ## C25 the ring Z/n -/

/-- An operand: a value obtainable through the API. -/
abbrev Operand (T : NatTy) (c : Canvas) : Prop := ReachMod T (fun _ => True) c

theorem add_val (T : NatTy) (x y : Canvas) : NatMod.add T x y = NatMod.add T (T.enc (val x)) (T.enc (val y)) := by
  unfold NatMod.add; simp only [toBigUint_tenc]
theorem sub_val (T : NatTy) (x y : Canvas) : NatMod.sub T x y = NatMod.sub T (T.enc (val x)) (T.enc (val y)) := by
  unfold NatMod.sub; simp only [toBigUint_tenc]
theorem mul_val (T : NatTy) (x y : Canvas) : NatMod.mul T x y = NatMod.mul T (T.enc (val x)) (T.enc (val y)) := by
  unfold NatMod.mul; simp only [toBigUint_tenc]
theorem div_val (T : NatTy) (x y : Canvas) : NatMod.div T x y = NatMod.div T (T.enc (val x)) (T.enc (val y)) := by
  unfold NatMod.div; simp only [toBigUint_tenc]
theorem inv_val (hT : T.WF) {x : Canvas} (hx : Operand T x) : NatMod.inv T x = NatMod.inv T (T.enc (val x)) := by
  unfold NatMod.inv AbstractInt.inv; rw [toBig_tenc, toBig_of_proper (reach_proper hT hx).1]
theorem powFelem_val (hT : T.WF) {x e : Canvas} (hx : Operand T x) (he : Operand T e) :
    NatMod.powFelem T x e = NatMod.powFelem T (T.enc (val x)) (T.enc (val e)) := by
  unfold NatMod.powFelem AbstractInt.powFelem
  rw [toBig_tenc, toBig_tenc, toBig_of_proper (reach_proper hT hx).1, toBig_of_proper (reach_proper hT he).1]
theorem pow_val (hT : T.WF) {x : Canvas} (hx : Operand T x) (e : BitVec 128) :
    NatMod.pow T x e = NatMod.pow T (T.enc (val x)) e := by
  unfold NatMod.pow AbstractInt.pow AbstractInt.powFelem
  rw [toBig_tenc, toBig_of_proper (reach_proper hT hx).1]

/-- C25: `+`, `-`, `*` never panic and compute in Z/n, with reduced results. -/
theorem C25_ring (hT : T.WF) {x y : Canvas} (hy : Operand T y) :
    (∃ r, NatMod.add T x y = .ok r ∧ val r < T.n ∧ (val r : ZMod T.n) = (val x : ZMod T.n) + val y) ∧
    (∃ r, NatMod.sub T x y = .ok r ∧ val r < T.n ∧ (val r : ZMod T.n) = (val x : ZMod T.n) - val y) ∧
    (∃ r, NatMod.mul T x y = .ok r ∧ val r < T.n ∧ (val r : ZMod T.n) = (val x : ZMod T.n) * val y) := by
  have hn := hT.1
  refine ⟨⟨_, by rw [add_val, add_enc hT], ?_, ?_⟩, ⟨_, by rw [sub_val, sub_enc hT _ _ (C24_bounded hT hy)], ?_, ?_⟩,
    ⟨_, by rw [mul_val, mul_enc hT], ?_, ?_⟩⟩ <;> rw [val, toBigUint_tenc]
  · exact Nat.mod_lt _ hn
  · rw [ZMod.natCast_mod, Nat.cast_add]
  · exact Nat.mod_lt _ hn
  · rw [ZMod.natCast_mod, Nat.cast_add, Nat.cast_sub (C24_bounded hT hy), ZMod.natCast_self, zero_sub, sub_eq_add_neg]
  · exact Nat.mod_lt _ hn
  · rw [ZMod.natCast_mod, Nat.cast_mul]

/-- C25: powers compute in Z/n; `pow` panics when the `u128` exponent does not fit the canvas. -/
theorem C25_pow (hT : T.WF) {x e : Canvas} (hx : Operand T x) (he : Operand T e) (k : BitVec 128) :
    (∃ r, NatMod.powFelem T x e = .ok r ∧ val r < T.n ∧ (val r : ZMod T.n) = (val x : ZMod T.n) ^ val e) ∧
    (k.toNat < 2 ^ T.bits - 1 →
      ∃ r, NatMod.pow T x k = .ok r ∧ val r < T.n ∧ (val r : ZMod T.n) = (val x : ZMod T.n) ^ k.toNat) ∧
    (2 ^ T.bits - 1 ≤ k.toNat → NatMod.pow T x k = panic) := by
  have hn := hT.1
  have h2 := hT.2
  refine ⟨⟨_, by rw [powFelem_val hT hx he, powFelem_enc hT], ?_, ?_⟩, ?_, ?_⟩
  · rw [val, toBigUint_tenc]; exact Nat.mod_lt _ hn
  · rw [val, toBigUint_tenc, ZMod.natCast_mod, Nat.cast_pow]
  · intro hk
    refine ⟨_, by rw [pow_val hT hx, pow_enc hT _ _ (by omega)], ?_, ?_⟩
    · rw [val, toBigUint_tenc]; exact Nat.mod_lt _ hn
    · rw [val, toBigUint_tenc, ZMod.natCast_mod, Nat.cast_pow]
  · intro hk
    rw [NatMod.pow, maxC_ok hT, bind_ok, AbstractInt.pow, fromBig_panic, bind_panic, bind_panic]
    rw [inRange_nat_iff]; omega

/-- C25: conversions into the type reduce, and panic exactly when the number does not fit the canvas. -/
theorem C25_from_bytes (hT : T.WF) (v : List U8) :
    (base256 v < 2 ^ T.bits - 1 → ∃ r, NatMod.fromLeBytes T v = .ok r ∧ val r = base256 v % T.n) ∧
    (2 ^ T.bits - 1 ≤ base256 v → NatMod.fromLeBytes T v = panic) := by
  rw [← leNat_eq_base256]
  have h2 := hT.2
  constructor
  · intro h
    exact ⟨_, fromLeBytes_enc hT v (by omega), toBigUint_tenc _⟩
  · intro h
    rw [NatMod.fromLeBytes, AbstractInt.fromLeBytes, fromBig_panic, bind_panic]
    rw [inRange_nat_iff]; omega

example : ∃ r, NatMod.sub ⟨8, 13⟩ (NatTy.enc ⟨8, 13⟩ 3) (NatTy.enc ⟨8, 13⟩ 5) = .ok r ∧ val r = 11 := by
  exact ⟨_, sub_enc (T := ⟨8, 13⟩) (by decide) 3 5 (by decide), by rw [val, toBigUint_tenc]; rfl⟩
example : Operand ⟨8, 13⟩ (NatTy.enc ⟨8, 13⟩ 5) :=
  .literal 5#128 _ trivial (fromLiteral_enc (T := ⟨8, 13⟩) (by decide) 5#128 (by decide))

/-! ## C26 field inversion -/

/-- C26: for a prime modulus, `x * x.inv() = 1` for every `x` that is not zero in Z/n; the inverse of zero is
zero (except in the two-element field). -/
theorem C26_inverse (hT : T.WF) (hp : T.n.Prime) {x : Canvas} (hx : Operand T x) :
    ∃ y, NatMod.inv T x = .ok y ∧ val y < T.n ∧
      (val x % T.n ≠ 0 → ∃ z, NatMod.mul T x y = .ok z ∧ val z = 1) ∧
      (val x % T.n = 0 → T.n ≠ 2 → val y = 0) := by
  have h2 := hp.two_le
  refine ⟨_, by rw [inv_val hT hx, inv_enc hT h2], ?_, ?_, ?_⟩
  · rw [val, toBigUint_tenc]; exact Nat.mod_lt _ hT.1
  · intro h0
    refine ⟨_, by rw [mul_val, mul_enc hT], ?_⟩
    simp only [val, toBigUint_tenc]
    have : Fact T.n.Prime := ⟨hp⟩
    have hne : ((val x : Nat) : ZMod T.n) ≠ 0 := by
      rw [Ne, ZMod.natCast_eq_zero_iff]; intro hd; exact h0 (Nat.mod_eq_zero_of_dvd hd)
    have hf := ZMod.pow_card_sub_one_eq_one hne
    have hc : ((val x * (val x ^ (T.n - 2) % T.n) : Nat) : ZMod T.n) = ((1 : Nat) : ZMod T.n) := by
      rw [Nat.cast_mul, ZMod.natCast_mod, Nat.cast_pow, ← pow_succ', show T.n - 2 + 1 = T.n - 1 by omega, hf,
        Nat.cast_one]
    rw [ZMod.natCast_eq_natCast_iff', Nat.mod_eq_of_lt (show 1 < T.n by omega)] at hc
    exact hc
  · intro h0 hne
    rw [val, toBigUint_tenc, Nat.pow_mod, h0, Nat.zero_pow (by omega), Nat.zero_mod]

/-- The field of Curve25519: `curve25519.rs:4-9`. -/
def fe25519 : NatTy := { bits := 256, n := 2 ^ 255 - 19 }
/-- The field of Poly1305: `poly1305.rs:16-21`. -/
def fe1305 : NatTy := { bits := 272, n := 2 ^ 130 - 5 }
/-- The field of P-256: `p256.rs:4`. -/
def feP256 : NatTy := { bits := 256, n := 2 ^ 256 - 2 ^ 224 + 2 ^ 192 + 2 ^ 96 - 1 }

/-- C26: inversion is right in the three fields the examples use: their moduli are prime. -/
theorem C26_concrete_fields :
    (fe25519.WF ∧ fe25519.n.Prime) ∧ (fe1305.WF ∧ fe1305.n.Prime) ∧ (feP256.WF ∧ feP256.n.Prime) := by
  refine ⟨⟨by decide +kernel, Primes.prime_25519⟩, ⟨by decide +kernel, Primes.prime_1305⟩,
    ⟨by decide +kernel, Primes.prime_p256⟩⟩

example : ∃ y, NatMod.inv fe25519 (fe25519.enc 9) = .ok y ∧ ∃ z, NatMod.mul fe25519 (fe25519.enc 9) y = .ok z ∧ val z = 1 := by
  obtain ⟨y, h1, _, h2, _⟩ := C26_inverse C26_concrete_fields.1.1 C26_concrete_fields.1.2
    (.literal 9#128 _ trivial (fromLiteral_enc C26_concrete_fields.1.1 9#128 (by decide)))
  exact ⟨y, h1, h2 (by rw [val, toBigUint_tenc]; decide +kernel)⟩

/-! ## C27 division -/

/-- C27 (what `/` computes): floor division of the representatives, panicking exactly for the divisor 0. -/
theorem C27_div_is_floor_partial (hT : T.WF) {x y : Canvas} :
    (val y ≠ 0 → ∃ r, NatMod.div T x y = .ok r ∧ val r = val x / val y % T.n) ∧
    (val y = 0 → NatMod.div T x y = panic) := by
  constructor
  · intro h
    exact ⟨_, by rw [div_val, div_enc hT _ _ h], toBigUint_tenc _⟩
  · intro h
    rw [NatMod.div, require_false (by simpa using h), bind_panic]

/-- C27 (what `%` computes): the remainder of the representatives, panicking exactly for the divisor 0. -/
theorem C27_rem (hT : T.WF) {x y : Canvas} :
    (val y ≠ 0 → ∃ r, NatMod.rem T x y = .ok r ∧ val r = val x % val y % T.n) ∧
    (val y = 0 → NatMod.rem T x y = panic) := by
  have hn := hT.1
  constructor
  · intro h
    refine ⟨T.enc (val x % val y % T.n), ?_, toBigUint_tenc _⟩
    rw [NatMod.rem, require_true h, bind_ok, maxC_ok hT, bind_ok]
    simp only [toBigUint_enc]
    rw [require_true (by omega), bind_ok, fromNat_mod hT]; rfl
  · intro h
    rw [NatMod.rem, require_false (by simpa using h), bind_panic]

example : ∃ r, NatMod.rem ⟨8, 13⟩ (NatTy.enc ⟨8, 13⟩ 11) (NatTy.enc ⟨8, 13⟩ 4) = .ok r ∧ val r = 3 := by
  obtain ⟨r, h, hr⟩ := (C27_rem (T := ⟨8, 13⟩) (by decide)
    (x := NatTy.enc ⟨8, 13⟩ 11) (y := NatTy.enc ⟨8, 13⟩ 4)).1 (by rw [val, toBigUint_tenc]; decide)
  refine ⟨r, h, ?_⟩
  rw [hr, val, val, toBigUint_tenc, toBigUint_tenc]; rfl

/-- C27 (refutation of field division): for every odd modulus `n > 2`, 2 is invertible and `1 ≠ 0`, but
`(1 / 2) * 2 = 0`. -/
theorem C27_not_field_division_refuted (hT : T.WF) (hn : 2 < T.n) (hodd : T.n % 2 = 1) :
    IsUnit (2 : ZMod T.n) ∧ (1 : ZMod T.n) ≠ 0 ∧
    ∃ q r, NatMod.div T (T.enc 1) (T.enc 2) = .ok q ∧ NatMod.mul T q (T.enc 2) = .ok r ∧ val r = 0 := by
  have hu : IsUnit ((2 : Nat) : ZMod T.n) := by
    rw [ZMod.isUnit_iff_coprime, Nat.coprime_two_left, Nat.odd_iff]; exact hodd
  have : Fact (1 < T.n) := ⟨by omega⟩
  refine ⟨by simpa using hu, one_ne_zero, _, _, div_enc hT 1 2 (by decide), mul_enc hT _ _, ?_⟩
  rw [val, toBigUint_tenc]; simp

example : ∃ q r, NatMod.div ⟨8, 13⟩ (NatTy.enc ⟨8, 13⟩ 1) (NatTy.enc ⟨8, 13⟩ 2) = .ok q ∧
    NatMod.mul ⟨8, 13⟩ q (NatTy.enc ⟨8, 13⟩ 2) = .ok r ∧ val r = 0 :=
  (C27_not_field_division_refuted (by decide) (by decide) (by decide)).2.2

end Hacspec.Props
