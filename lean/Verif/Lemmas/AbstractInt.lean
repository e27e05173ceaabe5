import Verif.Model.NatMod
import Verif.Lemmas.Seq

/-! # Lemmas about bounded big integers -/

namespace Hacspec.AbstractInt

open SecretInt

theorem leNat_append (a b : List U8) : leNat (a ++ b) = leNat a + 256 ^ a.length * leNat b := by
  induction a with
  | nil => simp [leNat]
  | cons x xs ih =>
    simp only [List.cons_append, leNat, ih, List.length_cons, Nat.pow_succ]
    rw [Nat.mul_add, ← Nat.add_assoc, ← Nat.mul_assoc, Nat.mul_comm 256 (256 ^ _)]

theorem leNat_replicate_zero (k : Nat) : leNat (List.replicate k 0#8) = 0 := by
  induction k with
  | zero => rfl
  | succ k ih => simp [List.replicate_succ, leNat, ih]

theorem lt_pow_log2 (n : Nat) : n < 256 ^ (n.log2 / 8 + 1) := by
  rw [show (256 : Nat) = 2 ^ 8 from rfl, ← Nat.pow_mul]
  exact Nat.lt_of_lt_of_le Nat.lt_log2_self (Nat.pow_le_pow_right (by decide) (by omega))

theorem leNat_bytesLe (n : Nat) : leNat (bytesLe n) = n := by
  rw [bytesLe, leNat_digits, Nat.mod_eq_of_lt (lt_pow_log2 n)]

theorem length_bytesLe (n : Nat) : (bytesLe n).length = n.log2 / 8 + 1 := by simp [bytesLe]

theorem length_bytesLe_le {n k : Nat} (hk : 0 < k) : (bytesLe n).length ≤ k ↔ n < 256 ^ k := by
  rw [length_bytesLe]
  constructor
  · intro h
    exact Nat.lt_of_lt_of_le (lt_pow_log2 n) (Nat.pow_le_pow_right (by decide) h)
  · intro h
    by_cases h0 : n = 0
    · subst h0; simp; omega
    · rw [show (256 : Nat) = 2 ^ 8 from rfl, ← Nat.pow_mul, ← Nat.log2_lt h0] at h
      omega

/-- Values accepted by `From<BigInt>`. -/
def InRange (bits : Nat) (signed : Bool) (x : Int) : Prop :=
  x < 2 ^ bits - 1 ∧ (0 ≤ x ∨ (signed = true ∧ x.natAbs < 256 ^ nb bits))

instance (bits : Nat) (signed : Bool) (x : Int) : Decidable (InRange bits signed x) := by
  unfold InRange; infer_instance

/-- The struct representing an integer. -/
def enc (bits : Nat) (x : Int) : Canvas :=
  { b := List.replicate (nb bits - (bytesLe x.natAbs).length) 0#8 ++ (bytesLe x.natAbs).reverse, sign := sgnOf x }

theorem cast_two_pow (bits : Nat) : ((2 ^ bits : Nat) : Int) = 2 ^ bits := by
  rw [Int.natCast_pow]; rfl

theorem pow_nb (bits : Nat) : 2 ^ bits ≤ 256 ^ nb bits := by
  rw [show (256 : Nat) = 2 ^ 8 from rfl, ← Nat.pow_mul]
  exact Nat.pow_le_pow_right (by decide) (by unfold nb; omega)

theorem natOfBe_enc (bits : Nat) (x : Int) : natOfBe (enc bits x).b = x.natAbs := by
  simp only [natOfBe, enc, List.reverse_append, List.reverse_reverse, List.reverse_replicate]
  rw [leNat_append, leNat_bytesLe, leNat_replicate_zero]; rfl

theorem toBig_enc (bits : Nat) (x : Int) : toBig (enc bits x) = x := by
  have h := natOfBe_enc bits x
  unfold toBig
  rw [h]
  simp only [enc, sgnOf]
  by_cases h1 : x < 0
  · simp only [h1, if_true]; omega
  · by_cases h2 : x = 0
    · simp [h2]
    · simp only [h1, h2, if_false]; omega

theorem toBigUint_enc (bits : Nat) (x : Nat) : toBigUint (enc bits x) = x := by
  rw [toBigUint, natOfBe_enc]; rfl

theorem fits_of_inRange {bits : Nat} {signed : Bool} {x : Int} (h : InRange bits signed x) :
    (bytesLe x.natAbs).length ≤ nb bits := by
  obtain ⟨h1, h2⟩ := h
  have key : x.natAbs < 256 ^ nb bits := by
    rcases h2 with h2 | h2
    · have := pow_nb bits
      have hc := cast_two_pow bits
      omega
    · exact h2.2
  by_cases hb : 0 < nb bits
  · exact (length_bytesLe_le hb).mpr key
  · have hb0 : bits = 0 := by unfold nb at hb; omega
    subst hb0
    simp [nb] at key
    simp at h1
    omega

theorem length_enc {bits : Nat} {signed : Bool} {x : Int} (h : InRange bits signed x) :
    (enc bits x).b.length = nb bits := by
  have := fits_of_inRange h
  simp [enc]; omega

theorem fromBig_eq (bits : Nat) (signed : Bool) (x : Int) :
    fromBig bits signed x = if InRange bits signed x then .ok (enc bits x) else panic := by
  unfold fromBig max
  by_cases h1 : x < 2 ^ bits - 1
  · rw [require_true h1, bind_ok]
    simp only []
    by_cases h2 : x < 0
    · have hs : sgnOf x = .minus := by simp [sgnOf, h2]
      cases signed with
      | false =>
        rw [if_pos ⟨hs, rfl⟩, if_neg]
        rintro ⟨_, h | h⟩
        · omega
        · simp at h
      | true =>
        rw [if_neg (by simp)]
        by_cases hb : 0 < nb bits
        · by_cases h3 : x.natAbs < 256 ^ nb bits
          · rw [if_neg (by rw [List.length_reverse]; exact Nat.not_lt.mpr ((length_bytesLe_le hb).mpr h3)),
              if_pos ⟨h1, Or.inr ⟨rfl, h3⟩⟩]
            simp [enc]
          · rw [if_pos (by rw [List.length_reverse]; exact Nat.lt_of_not_le (fun h => h3 ((length_bytesLe_le hb).mp h))),
              if_neg]
            rintro ⟨_, h | h⟩
            · omega
            · exact h3 h.2
        · have hb0 : bits = 0 := by unfold nb at hb; omega
          subst hb0
          rw [if_pos (by rw [List.length_reverse, length_bytesLe]; simp [nb]), if_neg]
          rintro ⟨_, h | h⟩
          · omega
          · simp [nb] at h; omega
    · have hs : sgnOf x ≠ .minus := by simp only [sgnOf, h2, if_false]; split <;> simp
      have hr : InRange bits signed x := ⟨h1, Or.inl (by omega)⟩
      have := fits_of_inRange hr
      rw [if_neg (by simp [hs]), if_neg (by rw [List.length_reverse]; omega), if_pos hr]
      simp [enc]
  · rw [require_false h1, bind_panic, if_neg (fun h => h1 h.1)]

theorem fromBig_ok {bits : Nat} {signed : Bool} {x : Int} (h : InRange bits signed x) :
    fromBig bits signed x = .ok (enc bits x) := by rw [fromBig_eq, if_pos h]

theorem fromBig_panic {bits : Nat} {signed : Bool} {x : Int} (h : ¬ InRange bits signed x) :
    fromBig bits signed x = panic := by rw [fromBig_eq, if_neg h]

theorem not_inRange_of_gt {bits : Nat} {signed : Bool} {x : Int} (h : x > max bits) : ¬ InRange bits signed x := by
  intro h'; have := h'.1; unfold max at h; omega

theorem guarded_fromBig (bits : Nat) (signed : Bool) (x : Int) :
    (if x > max bits then panic else fromBig bits signed x) =
      if InRange bits signed x then .ok (enc bits x) else panic := by
  by_cases h : x > max bits
  · rw [if_pos h, if_neg (not_inRange_of_gt h)]
  · rw [if_neg h, fromBig_eq]

theorem powModAux_eq (m fuel a e : Nat) (h : e < 2 ^ fuel) : powModAux m fuel a e = a ^ e % m := by
  induction fuel generalizing a e with
  | zero => simp at h; subst h; simp [powModAux]
  | succ f ih =>
    rw [powModAux]
    have he : e / 2 < 2 ^ f := by rw [Nat.pow_succ] at h; omega
    simp only [ih _ _ he]
    have hp : (a * a % m) ^ (e / 2) % m = a ^ (2 * (e / 2)) % m := by
      rw [← Nat.pow_mod, ← Nat.pow_two, ← Nat.pow_mul]
    split
    · rename_i h1
      rw [hp, Nat.mul_mod, Nat.mod_mod, ← Nat.mul_mod, ← Nat.pow_succ']
      congr 2; omega
    · rename_i h1
      rw [hp]; congr 2; omega

theorem powMod_eq (a e m : Nat) : powMod a e m = a ^ e % m :=
  powModAux_eq m _ a e Nat.lt_log2_self

theorem modpow_nat (a e m : Nat) (hm : m ≠ 0) : modpow a e m = .ok ((a ^ e % m : Nat) : Int) := by
  rw [modpow, require_true (by omega), bind_ok, require_true (by omega), bind_ok]
  simp only [Int.natAbs_natCast, powMod_eq]
  split
  · rename_i h; rw [h]; rfl
  · have h1 : decide ((a : Int) < 0 ∧ (e : Int) % 2 = 1) = false := by
      rw [decide_eq_false_iff_not]; omega
    have h2 : decide ((m : Int) < 0) = false := by rw [decide_eq_false_iff_not]; omega
    rw [h1, h2]

end Hacspec.AbstractInt

namespace Hacspec.NatMod

open AbstractInt

/-- Well-formed type: the modulus is positive and fits the canvas. -/
def NatTy.WF (T : NatTy) : Prop := 0 < T.n ∧ T.n + 1 < 2 ^ T.bits

instance (T : NatTy) : Decidable T.WF := by unfold NatTy.WF; infer_instance

variable {T : NatTy}

theorem inRange_nat_iff {bits k : Nat} : InRange bits false (k : Int) ↔ k + 1 < 2 ^ bits := by
  have hc := cast_two_pow bits
  constructor
  · intro h; have := h.1; omega
  · intro h; exact ⟨by omega, Or.inl (by omega)⟩

theorem inRange_nat {bits k : Nat} (h : k + 1 < 2 ^ bits) : InRange bits false (k : Int) := inRange_nat_iff.mpr h

theorem maxC_ok (hT : T.WF) : T.maxC = .ok (enc T.bits (T.n : Int)) := fromBig_ok (inRange_nat hT.2)

theorem fromCanvas_val (hT : T.WF) (x : Canvas) (k : Nat) (h : toBig x = k) :
    fromCanvas T x = .ok (enc T.bits ((k % T.n : Nat) : Int)) := by
  have hlt : k % T.n < T.n := Nat.mod_lt _ hT.1
  have hn := hT.1
  have h2 := hT.2
  rw [fromCanvas, maxC_ok hT, bind_ok, AbstractInt.rem, toBig_enc, if_neg (by omega), h]
  rw [Int.tmod_eq_emod_of_nonneg (by omega), ← Int.natCast_emod, fromBig_ok]
  exact inRange_nat (by omega)

theorem fromCanvas_enc (hT : T.WF) (k : Nat) :
    fromCanvas T (enc T.bits (k : Int)) = .ok (enc T.bits ((k % T.n : Nat) : Int)) :=
  fromCanvas_val hT _ k (toBig_enc _ _)

theorem fromNat_ok (hT : T.WF) (d : Nat) (hd : d + 1 < 2 ^ T.bits) :
    fromNat T d = .ok (enc T.bits ((d % T.n : Nat) : Int)) := by
  rw [fromNat, fromBigUint, fromBig_ok (inRange_nat hd), bind_ok, fromCanvas_enc hT]

theorem fromNat_mod (hT : T.WF) (c : Nat) : fromNat T (c % T.n) = .ok (enc T.bits ((c % T.n : Nat) : Int)) := by
  have hlt : c % T.n < T.n := Nat.mod_lt _ hT.1
  have h2 := hT.2
  rw [fromNat_ok hT _ (by omega), Nat.mod_mod]

/-- The representation of a residue. -/
def NatTy.enc (T : NatTy) (k : Nat) : Canvas := AbstractInt.enc T.bits (k : Int)

theorem toBig_tenc (k : Nat) : toBig (T.enc k) = k := toBig_enc _ _
theorem toBigUint_tenc (k : Nat) : toBigUint (T.enc k) = k := toBigUint_enc _ _

theorem add_enc (hT : T.WF) (a b : Nat) : add T (T.enc a) (T.enc b) = .ok (T.enc ((a + b) % T.n)) := by
  have := hT.1
  rw [add, maxC_ok hT, bind_ok]
  simp only [toBigUint_tenc, toBigUint_enc]
  rw [require_true (by omega), bind_ok, fromNat_mod hT]; rfl

theorem mul_enc (hT : T.WF) (a b : Nat) : mul T (T.enc a) (T.enc b) = .ok (T.enc ((a * b) % T.n)) := by
  have := hT.1
  rw [mul, maxC_ok hT, bind_ok]
  simp only [toBigUint_tenc, toBigUint_enc]
  rw [require_true (by omega), bind_ok, fromNat_mod hT]; rfl

theorem sub_enc (hT : T.WF) (a b : Nat) (hb : b ≤ T.n) :
    sub T (T.enc a) (T.enc b) = .ok (T.enc ((a + (T.n - b)) % T.n)) := by
  have := hT.1
  rw [sub, maxC_ok hT, bind_ok]
  simp only [toBigUint_tenc, toBigUint_enc, subNat]
  split
  · rename_i h
    rw [require_true hb, bind_ok, bind_ok, require_true (by omega), bind_ok, fromNat_mod hT, Nat.add_comm]; rfl
  · rename_i h
    rw [bind_ok, require_true (by omega), bind_ok, fromNat_mod hT]
    have : a + (T.n - b) = (a - b) + T.n := by omega
    rw [this, Nat.add_mod_right]; rfl

theorem div_enc (hT : T.WF) (a b : Nat) (hb : b ≠ 0) :
    div T (T.enc a) (T.enc b) = .ok (T.enc ((a / b) % T.n)) := by
  have := hT.1
  rw [div]
  simp only [toBigUint_tenc]
  rw [require_true hb, bind_ok, maxC_ok hT, bind_ok]
  simp only [toBigUint_enc]
  rw [require_true (by omega), bind_ok, fromNat_mod hT]; rfl

theorem inv_enc (hT : T.WF) (h2 : 2 ≤ T.n) (a : Nat) :
    inv T (T.enc a) = .ok (T.enc (a ^ (T.n - 2) % T.n)) := by
  have hlt : a ^ (T.n - 2) % T.n < T.n := Nat.mod_lt _ hT.1
  have hT2 := hT.2
  rw [inv, maxC_ok hT, bind_ok, AbstractInt.inv]
  simp only [toBig_tenc, toBig_enc]
  rw [show ((T.n : Int) - 2) = ((T.n - 2 : Nat) : Int) by omega, modpow_nat _ _ _ (by omega), bind_ok,
    fromBig_ok (inRange_nat (by omega)), bind_ok, fromCanvas_enc hT, Nat.mod_mod]; rfl

theorem powFelem_enc (hT : T.WF) (a e : Nat) :
    powFelem T (T.enc a) (T.enc e) = .ok (T.enc (a ^ e % T.n)) := by
  have hlt : a ^ e % T.n < T.n := Nat.mod_lt _ hT.1
  have h1 := hT.1
  have hT2 := hT.2
  rw [powFelem, maxC_ok hT, bind_ok, AbstractInt.powFelem]
  simp only [toBig_tenc, toBig_enc]
  rw [modpow_nat _ _ _ (by omega), bind_ok,
    fromBig_ok (inRange_nat (by omega)), bind_ok, fromCanvas_enc hT, Nat.mod_mod]; rfl

theorem pow_enc (hT : T.WF) (a : Nat) (e : BitVec 128) (he : e.toNat + 1 < 2 ^ T.bits) :
    pow T (T.enc a) e = .ok (T.enc (a ^ e.toNat % T.n)) := by
  have := powFelem_enc hT a e.toNat
  rw [powFelem, maxC_ok hT, bind_ok] at this
  rw [pow, maxC_ok hT, bind_ok, AbstractInt.pow, fromBig_ok (inRange_nat he), bind_ok]
  exact this

theorem fromLiteral_enc (hT : T.WF) (x : BitVec 128) (hx : x.toNat ≤ T.n) :
    fromLiteral T x = .ok (T.enc x.toNat) := by
  have h2 := hT.2
  rw [fromLiteral, maxC_ok hT, bind_ok, toBigUint_enc, if_neg (by omega), fromBigUint,
    fromBig_ok (inRange_nat (by omega))]; rfl

theorem fromLeBytes_enc (hT : T.WF) (v : List U8) (hv : SecretInt.leNat v + 1 < 2 ^ T.bits) :
    fromLeBytes T v = .ok (T.enc (SecretInt.leNat v % T.n)) := by
  rw [fromLeBytes, AbstractInt.fromLeBytes, fromBig_ok (inRange_nat hv), bind_ok, fromCanvas_enc hT]; rfl

theorem toLeBytes_enc (k : Nat) : toLeBytes (T.enc k) = bytesLe k := by
  rw [toLeBytes, AbstractInt.toLeBytes, toBig_tenc, Int.natAbs_natCast]

theorem bit_enc (k i : Nat) (hk : k + 1 < 2 ^ T.bits) (hi : i < nb T.bits * 8) :
    bit (T.enc k) i = .ok (k.testBit i) := by
  rw [bit, AbstractInt.bit, NatTy.enc, length_enc (inRange_nat hk), require_true hi, bind_ok, toBig_enc]
  congr 1
  rw [Nat.testBit_eq_decide_div_mod_eq]
  congr 1
  rw [Int.shiftRight_eq_div_pow]
  have hc := cast_two_pow i
  apply propext
  constructor
  · intro h
    have : (((k / 2 ^ i) % 2 : Nat) : Int) = 1 := by rw [← h]; simp
    omega
  · intro h
    have : (((k / 2 ^ i) % 2 : Nat) : Int) = 1 := by rw [h]; rfl
    rw [← this]; simp

theorem eq_enc (a b : Nat) : eq (T.enc a) (T.enc b) = decide (a = b) := by
  rw [eq, AbstractInt.eq, toBig_tenc, toBig_tenc]
  congr 1
  exact propext Int.ofNat_inj

theorem enc_inj {a b : Nat} (h : T.enc a = T.enc b) : a = b := by
  have := congrArg toBigUint h
  rwa [toBigUint_tenc, toBigUint_tenc] at this

end Hacspec.NatMod
