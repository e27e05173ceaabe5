import Verif.Lemmas.MachineInt
import Mathlib.Tactic.Ring
import Mathlib.Tactic.Linarith
import Mathlib.Tactic.LinearCombination
import Mathlib.Tactic.Positivity
import Mathlib.Data.Int.GCD

/-! # Helper lemmas: modular machine arithmetic and the Euclidean inverse -/

namespace Hacspec.MachineInt

open SecretInt

variable {w : Nat}

/-- Ceiling division used to describe the number of iterations of `sub_mod`. -/
def cdiv (a n : Nat) : Nat := (a + n - 1) / n

theorem cdiv_zero {n : Nat} (hn : 0 < n) : cdiv 0 n = 0 := by
  simp only [cdiv, Nat.zero_add]; exact Nat.div_eq_of_lt (by omega)

theorem cdiv_step {a n : Nat} (hn : 0 < n) (ha : 0 < a) : cdiv a n = cdiv (a - n) n + 1 := by
  by_cases h : n ≤ a
  · have : a + n - 1 = (a - n + n - 1) + n := by omega
    rw [cdiv, this, Nat.add_div_right _ hn, cdiv]
  · have h1 : a + n - 1 = (a - 1) + n := by omega
    have h2 : a - n + n - 1 = n - 1 := by omega
    rw [cdiv, h1, Nat.add_div_right _ hn, cdiv, h2, Nat.div_eq_of_lt (by omega : a - 1 < n),
      Nat.div_eq_of_lt (by omega : n - 1 < n)]

theorem subLoop (rhs n : BitVec w) (hn : 0 < n.toNat) (fuel : Nat) (x : BitVec w)
    (hf : rhs.toNat - x.toNat < fuel) :
    whileM fuel (fun t => decide (t.toNat < rhs.toNat)) (fun t => addU t n) x
      = if x.toNat + cdiv (rhs.toNat - x.toNat) n.toNat * n.toNat < 2 ^ w
        then .ok (BitVec.ofNat w (x.toNat + cdiv (rhs.toNat - x.toNat) n.toNat * n.toNat)) else panic := by
  induction fuel generalizing x with
  | zero => omega
  | succ f ih =>
    by_cases hc : x.toNat < rhs.toNat
    · rw [whileM_step (by simpa using hc)]
      have hstep := cdiv_step (a := rhs.toNat - x.toNat) hn (by omega)
      rw [hstep, Nat.add_mul, Nat.one_mul]
      by_cases hov : x.toNat + n.toNat < 2 ^ w
      · have hx' : (x + n).toNat = x.toNat + n.toNat := by
          rw [BitVec.toNat_add]; exact Nat.mod_eq_of_lt hov
        simp only [addU, checkedAddU, hov, if_true, bind_ok]
        have := ih (x + n) (by omega)
        simp only [addU, checkedAddU] at this
        rw [this, hx', Nat.sub_sub, Nat.add_assoc, Nat.add_comm n.toNat]
      · simp only [addU, checkedAddU, hov, if_false, bind_panic]
        rw [if_neg]; omega
    · rw [whileM_done (Nat.succ_pos f) (by simpa using hc)]
      have : rhs.toNat - x.toNat = 0 := by omega
      rw [this, cdiv_zero hn]
      simp [x.isLt]

theorem subLoop_zero (rhs x : BitVec w) (h : x.toNat < rhs.toNat) (fuel : Nat) :
    whileM fuel (fun t => decide (t.toNat < rhs.toNat)) (fun t => addU t 0#w) x = .error .diverge := by
  induction fuel with
  | zero => rfl
  | succ f ih =>
    rw [whileM_step (by simpa using h)]
    have : addU x 0#w = .ok x := by simp [addU, checkedAddU, x.isLt]
    rw [this, bind_ok, ih]

/-! ## signed_mod -/

theorem fits_of_le {x y : Int} (hx : fitsS 128 x) (h : y.natAbs ≤ x.natAbs) (h2 : y ≠ 2 ^ 127) :
    fitsS 128 y := by
  simp only [fitsS] at *; omega

theorem signedMod_pos {x n : Int} (hx : fitsS 128 x) (hn : 0 < n) (hnf : fitsS 128 n) :
    signedMod x n = .ok (x % n) := by
  have hq : fitsS 128 (x.tdiv n) := by
    by_cases h : x = 0
    · subst h; simp [fitsS]
    · have h1 : (x.tdiv n).natAbs ≤ x.natAbs := by
        rw [Int.natAbs_tdiv]; exact Nat.div_le_self _ _
      by_cases h2 : 0 ≤ x
      · apply fits_of_le hx h1
        simp only [fitsS] at hx
        omega
      · apply fits_of_le hx h1
        have : x.tdiv n ≤ 0 := by
          rw [← Int.neg_neg x, Int.neg_tdiv]
          have := Int.tdiv_nonneg (a := -x) (b := n) (by omega) (by omega)
          omega
        omega
  have hlt := Int.tmod_lt_of_pos x hn
  have hgt : -n < x.tmod n := by
    have := Int.tmod_lt_of_pos (-x) hn
    rw [Int.neg_tmod] at this; omega
  have hfn : (2:Int)^(128-1) = 2^127 := by norm_num
  simp only [signedMod, require_true (show n ≠ 0 by omega), bind_ok, i128, hq, if_true]
  by_cases h0 : x.tmod n < 0
  · have e : x % n = x.tmod n + n := by
      have h3 : (x.tmod n + n) % n = x % n := by
        rw [Int.add_emod_right]
        have := Int.mul_tdiv_add_tmod x n
        conv => rhs; rw [← this]
        rw [Int.add_comm, Int.add_mul_emod_self_left]
      rw [← h3]; exact Int.emod_eq_of_lt (by omega) (by omega)
    have hfit : fitsS 128 (x.tmod n + n) := by simp only [fitsS] at *; omega
    rw [show (2 ^ 128 + 1 : Nat) = 2 ^ 128 + 1 from rfl, whileM_step (by simpa using h0)]
    simp only [hfit, if_true, bind_ok]
    rw [whileM_done (by positivity) (by simp; omega), e]
  · rw [whileM_done (by positivity) (by simpa using h0)]
    congr 1
    rw [Int.tmod_eq_emod] at *
    split at h0 <;> rename_i hs
    · simp [hs]
    · exfalso
      have := Int.emod_lt_of_pos x hn
      omega

theorem signedMod_zero (x : Int) : signedMod x 0 = panic := by simp [signedMod]

theorem signedLoop_neg {n : Int} (hn : n < 0) (fuel : Nat) (r : Int) (hr : r < 0)
    (hlo : -(2 ^ 127 : Int) ≤ r) (hf : (r + 2 ^ 127).toNat < fuel) :
    whileM fuel (fun r => decide (r < 0)) (fun r => i128 (r + n)) r = panic := by
  induction fuel generalizing r with
  | zero => omega
  | succ f ih =>
    rw [whileM_step (by simpa using hr)]
    by_cases h : fitsS 128 (r + n)
    · have h' : i128 (r + n) = .ok (r + n) := by simp [i128, h]
      rw [h', bind_ok]
      simp only [fitsS] at h
      apply ih <;> omega
    · simp [i128, h]

/-- Behaviour for a negative modulus. -/
theorem signedMod_neg {x n : Int} (hx : fitsS 128 x) (hn : n < 0) (hnf : fitsS 128 n) :
    signedMod x n = if fitsS 128 (x.tdiv n) ∧ 0 ≤ x.tmod n then .ok (x.tmod n) else panic := by
  by_cases hq : fitsS 128 (x.tdiv n)
  · have hgt : n < x.tmod n := by
      have h1 := Int.tmod_lt_of_pos (-x) (show 0 < -n by omega)
      rw [Int.neg_tmod, Int.tmod_neg] at h1; omega
    simp only [signedMod, require_true (show n ≠ 0 by omega), bind_ok, i128, hq, if_true, true_and]
    by_cases h0 : 0 ≤ x.tmod n
    · rw [whileM_done (by positivity) (by simpa using h0)]; simp [h0]
    · simp only [h0, if_false]
      have := signedLoop_neg hn (2 ^ 128 + 1) (x.tmod n) (by omega)
        (by simp only [fitsS] at hnf; omega) (by omega)
      simp only [i128] at this
      exact this
  · simp [signedMod, show n ≠ 0 by omega, i128, hq]

/-! ## Extended Euclid -/

/-- `O` computes exactly on non-negative values below `B`. -/
structure ExactBelow (O : IntOps w) (B : Nat) : Prop where
  le : B ≤ 2 ^ w
  pos : 1 < B
  add : ∀ a b : BitVec w, a.toNat + b.toNat < B → O.add a b = .ok (a + b)
  sub : ∀ a b : BitVec w, b.toNat ≤ a.toNat → a.toNat < B → O.sub a b = .ok (a - b)
  mul : ∀ a b : BitVec w, a.toNat < B → b.toNat < B → a.toNat * b.toNat < B → O.mul a b = .ok (a * b)
  div : ∀ a b : BitVec w, a.toNat < B → b.toNat < B → b ≠ 0#w → O.div a b = .ok (a / b)
  lt : ∀ a b : BitVec w, a.toNat < B → b.toNat < B → O.lt a b = decide (a.toNat < b.toNat)

theorem exact_pubU (hw : 0 < w) : ExactBelow (pubU : IntOps w) (2 ^ w) where
  le := Nat.le_refl _
  pos := Nat.one_lt_two_pow (by omega)
  add a b h := by simp [pubU, addU, checkedAddU, h]
  sub a b h _ := by simp [pubU, subU, checkedSubU, h]
  mul a b _ _ h := by simp [pubU, mulU, checkedMulU, h]
  div a b _ _ h := by simp [pubU, divU, h]
  lt a b _ _ := rfl

theorem exact_secU (hw : 0 < w) : ExactBelow (secU : IntOps w) (2 ^ w) where
  le := Nat.le_refl _
  pos := Nat.one_lt_two_pow (by omega)
  add a b _ := rfl
  sub a b _ _ := rfl
  mul a b _ _ _ := rfl
  div a b _ _ h := by simp [secU, divU, h]
  lt a b _ _ := rfl

theorem toInt_small (hw : 0 < w) {a : BitVec w} (h : a.toNat < 2 ^ (w - 1)) : a.toInt = a.toNat := by
  have : 2 ^ w = 2 ^ (w - 1) * 2 := by rw [← Nat.pow_succ]; congr 1; omega
  rw [BitVec.toInt_eq_toNat_cond, if_pos (by omega)]

theorem pow_cast (k : Nat) : ((2 : Int) ^ k) = ((2 ^ k : Nat) : Int) := by push_cast; rfl

theorem exact_divS (hw : 0 < w) (a b : BitVec w) (ha : a.toNat < 2 ^ (w - 1))
    (hb : b.toNat < 2 ^ (w - 1)) (h : b ≠ 0#w) : divS a b = .ok (a / b) := by
  have e : a.toInt.tdiv b.toInt = ((a.toNat / b.toNat : Nat) : Int) := by
    rw [toInt_small hw ha, toInt_small hw hb]; exact Int.ofNat_tdiv _ _
  have hle : a.toNat / b.toNat ≤ a.toNat := Nat.div_le_self _ _
  have hf : fitsS w (a.toInt.tdiv b.toInt) := by
    rw [e]; generalize a.toNat / b.toNat = c at *
    simp only [fitsS, pow_cast]; omega
  simp only [divS, h, if_false, hf, if_true]
  congr 1
  rw [e]
  apply BitVec.eq_of_toNat_eq
  rw [BitVec.toNat_udiv, BitVec.ofInt_natCast, BitVec.toNat_ofNat]
  exact Nat.mod_eq_of_lt (by omega)

theorem exact_pubS (hw : 1 < w) : ExactBelow (pubS : IntOps w) (2 ^ (w - 1)) where
  le := Nat.pow_le_pow_right (by omega) (by omega)
  pos := Nat.one_lt_two_pow (by omega)
  add a b h := by
    have hf : fitsS w (a.toInt + b.toInt) := by
      rw [toInt_small (by omega) (by omega), toInt_small (by omega) (by omega)]
      simp only [fitsS, pow_cast]; omega
    simp [pubS, addS, checkedAddS, hf]
  sub a b h h2 := by
    have hf : fitsS w (a.toInt - b.toInt) := by
      rw [toInt_small (by omega) h2, toInt_small (by omega) (by omega)]
      simp only [fitsS, pow_cast]; omega
    simp [pubS, subS, checkedSubS, hf]
  mul a b ha hb h := by
    have hf : fitsS w (a.toInt * b.toInt) := by
      rw [toInt_small (by omega) ha, toInt_small (by omega) hb, ← Int.natCast_mul]
      simp only [fitsS, pow_cast]
      omega
    simp [pubS, mulS, checkedMulS, hf]
  div a b ha hb h := exact_divS (by omega) a b ha hb h
  lt a b ha hb := by
    simp only [pubS]; rw [toInt_small (by omega) ha, toInt_small (by omega) hb]; simp

theorem exact_secS (hw : 1 < w) : ExactBelow (secS : IntOps w) (2 ^ (w - 1)) where
  le := Nat.pow_le_pow_right (by omega) (by omega)
  pos := Nat.one_lt_two_pow (by omega)
  add a b _ := rfl
  sub a b _ _ := rfl
  mul a b _ _ _ := rfl
  div a b ha hb h := exact_divS (by omega) a b ha hb h
  lt a b ha hb := by
    simp only [secS]; rw [toInt_small (by omega) ha, toInt_small (by omega) hb]; simp

variable {O : IntOps w} {B : Nat}

/-- The inner loop followed by the subtraction computes `start - prod` modulo `n`. -/
theorem subAdd_spec (E : ExactBelow O B) (n start prod : BitVec w) (hs : start.toNat < n.toNat)
    (hp : prod.toNat + n.toNat ≤ B) :
    ∃ v, subAdd O n start prod = .ok v ∧ v.toNat < n.toNat ∧
      (n.toNat : Int) ∣ (v.toNat : Int) - ((start.toNat : Int) - prod.toNat) := by
  have hB := E.le
  obtain ⟨t, ht, ⟨htlt, hdv⟩, hc⟩ := whileM_inv
    (fun t : BitVec w => t.toNat < prod.toNat + n.toNat ∧ (n.toNat : Int) ∣ (t.toNat : Int) - start.toNat
       ∧ t.toNat < B ∧ (prod.toNat ≤ t.toNat → t.toNat - prod.toNat < n.toNat))
    (fun t => prod.toNat - t.toNat) (cond := fun t => O.lt t prod) (body := fun t => O.add t n)
    (by
      intro s ⟨h1, h2, h3, h4⟩ hc
      rw [E.lt s prod h3 (by omega)] at hc
      simp only [decide_eq_true_eq] at hc
      have hv : (s + n).toNat = s.toNat + n.toNat := by
        rw [BitVec.toNat_add]; exact Nat.mod_eq_of_lt (by omega)
      refine ⟨s + n, E.add s n (by omega), ⟨by omega, ?_, by omega, by omega⟩, by omega⟩
      rw [hv]; push_cast
      have : (s.toNat : Int) + n.toNat - start.toNat = (s.toNat - start.toNat) + n.toNat := by ring
      rw [this]
      exact Int.dvd_add h2 (Int.dvd_refl _))
    (fuel := 2 ^ w + 1) (s := start)
    ⟨by omega, by simp, by omega, by omega⟩
    (by have := prod.isLt; omega)
  rw [E.lt t prod hdv.2.1 (by omega)] at hc
  simp only [decide_eq_false_iff_not, Nat.not_lt] at hc
  have hv : (t - prod).toNat = t.toNat - prod.toNat := BitVec.toNat_sub_of_le hc
  refine ⟨t - prod, ?_, by have := hdv.2.2 hc; omega, ?_⟩
  · simp only [subAdd, ht, bind_ok]; exact E.sub t prod hc hdv.2.1
  · rw [hv, Int.natCast_sub hc]
    have : (t.toNat : Int) - prod.toNat - (start.toNat - prod.toNat) = t.toNat - start.toNat := by ring
    rw [this]; exact hdv.1

/-- Without borrow the inner loop does not run. -/
theorem subAdd_ge (E : ExactBelow O B) (n start prod : BitVec w) (h : prod.toNat ≤ start.toNat)
    (hs : start.toNat < B) : subAdd O n start prod = .ok (start - prod) := by
  simp only [subAdd]
  rw [whileM_done (Nat.succ_pos _) (by rw [E.lt start prod hs (by omega)]; simpa using h), bind_ok]
  exact E.sub start prod h hs

/-- Invariant of the Euclidean loop. -/
structure EInv (N X B : Nat) (s : EState w) : Prop where
  rB : s.r.toNat < B
  nB : s.newR.toNat < B
  tN : s.t.toNat < N
  ntN : s.newT.toNat < N
  gcd : Nat.gcd s.r.toNat s.newR.toNat = Nat.gcd X N
  bt : (N : Int) ∣ (s.t.toNat : Int) * X - s.r.toNat
  bnt : (N : Int) ∣ (s.newT.toNat : Int) * X - s.newR.toNat
  c1 : s.newT.toNat = 0 ∨ s.r.toNat ≤ N
  c2 : s.newR.toNat ≤ N ∨ (s.t.toNat = 0 ∧ s.r.toNat < s.newR.toNat ∧ s.r.toNat ≤ N)

theorem euclidStep_inv (E : ExactBelow O B) (n : BitVec w) (X : Nat) (hN : n.toNat * n.toNat ≤ B)
    (s : EState w) (h : EInv n.toNat X B s) (hnz : s.newR ≠ 0#w) :
    ∃ s', euclidStep O n s = .ok s' ∧ EInv n.toNat X B s' ∧ s'.newR.toNat < s.newR.toNat := by
  have hB := E.le
  have hNpos : 0 < n.toNat := by have := h.tN; omega
  have hrpos : 0 < s.newR.toNat := by
    rcases Nat.eq_zero_or_pos s.newR.toNat with h0 | h0
    · exact absurd (BitVec.eq_of_toNat_eq (by simpa using h0)) hnz
    · exact h0
  have hqv : (s.r / s.newR).toNat = s.r.toNat / s.newR.toNat := BitVec.toNat_udiv
  have hqle : s.r.toNat / s.newR.toNat ≤ s.r.toNat := Nat.div_le_self _ _
  have hprod : s.r.toNat / s.newR.toNat * s.newR.toNat ≤ s.r.toNat := Nat.div_mul_le_self _ _
  have hmod : s.r.toNat - s.r.toNat / s.newR.toNat * s.newR.toNat = s.r.toNat % s.newR.toNat := by
    have := Nat.div_add_mod' s.r.toNat s.newR.toNat; omega
  have hpv : (s.r / s.newR * s.newR).toNat = s.r.toNat / s.newR.toNat * s.newR.toNat := by
    rw [BitVec.toNat_mul, hqv]; exact Nat.mod_eq_of_lt (by have := h.rB; omega)
  have hmodlt := Nat.mod_lt s.r.toNat hrpos
  -- product with `new_t`
  have hqt : s.r.toNat / s.newR.toNat * s.newT.toNat + n.toNat ≤ B := by
    rcases h.c1 with h1 | h1
    · rw [h1, Nat.mul_zero]
      have : n.toNat * 1 ≤ n.toNat * n.toNat := Nat.mul_le_mul_left _ hNpos
      omega
    · have h2 : s.r.toNat / s.newR.toNat * s.newT.toNat ≤ n.toNat * (n.toNat - 1) :=
        Nat.mul_le_mul (by omega) (by have := h.ntN; omega)
      rw [Nat.mul_sub, Nat.mul_one] at h2
      have : n.toNat * 1 ≤ n.toNat * n.toNat := Nat.mul_le_mul_left _ hNpos
      omega
  have htv : (s.r / s.newR * s.newT).toNat = s.r.toNat / s.newR.toNat * s.newT.toNat := by
    rw [BitVec.toNat_mul, hqv]; exact Nat.mod_eq_of_lt (by omega)
  obtain ⟨v, hv, hvN, hvd⟩ := subAdd_spec E n s.t (s.r / s.newR * s.newT) h.tN (by rw [htv]; exact hqt)
  have hr' : (s.r - s.r / s.newR * s.newR).toNat = s.r.toNat % s.newR.toNat := by
    rw [BitVec.toNat_sub_of_le (by rw [BitVec.le_def, hpv]; exact hprod), hpv, hmod]
  refine ⟨⟨s.newT, s.newR, v, s.r - s.r / s.newR * s.newR⟩, ?_, ?_, ?_⟩
  · simp only [euclidStep]
    rw [E.div _ _ h.rB h.nB hnz, bind_ok, E.mul _ _ (by rw [hqv]; have := h.rB; omega) h.nB
      (by rw [hqv]; have := h.rB; omega), bind_ok,
      subAdd_ge E n _ _ (by rw [hpv]; exact hprod) h.rB, bind_ok,
      E.mul _ _ (by rw [hqv]; have := h.rB; omega)
        (by have := h.ntN; have : n.toNat * 1 ≤ n.toNat * n.toNat := Nat.mul_le_mul_left _ hNpos; omega)
        (by rw [hqv]; omega), bind_ok, hv, bind_ok]
  · constructor
    · exact h.nB
    · simp only [hr']; have := h.nB; omega
    · exact h.ntN
    · exact hvN
    · simp only [hr']
      rw [Nat.gcd_comm, ← Nat.gcd_rec, Nat.gcd_comm]; exact h.gcd
    · exact h.bnt
    · simp only [hr']
      rw [htv] at hvd
      obtain ⟨c, hc⟩ := hvd
      obtain ⟨a, ha⟩ := h.bt
      obtain ⟨b, hb⟩ := h.bnt
      refine ⟨a - (s.r.toNat / s.newR.toNat : Nat) * b + c * X, ?_⟩
      have hm : ((s.r.toNat % s.newR.toNat : Nat) : Int)
          = s.r.toNat - ((s.r.toNat / s.newR.toNat : Nat) : Int) * s.newR.toNat := by
        have := Nat.div_add_mod' s.r.toNat s.newR.toNat
        have h2 : (((s.r.toNat / s.newR.toNat) * s.newR.toNat + s.r.toNat % s.newR.toNat : Nat) : Int)
          = s.r.toNat := by rw [this]
        push_cast at h2 ⊢
        linarith
      rw [hm]
      push_cast at hc ⊢
      linear_combination X * hc + ha - ((s.r.toNat : Int) / s.newR.toNat) * hb
    · simp only
      rcases h.c2 with h1 | ⟨h1, h2, h3⟩
      · exact Or.inr h1
      · left
        have hq0 : s.r.toNat / s.newR.toNat = 0 := Nat.div_eq_of_lt h2
        rw [htv, hq0] at hvd
        simp only [Nat.zero_mul, h1] at hvd
        obtain ⟨c, hc⟩ := hvd
        have : (v.toNat : Int) = n.toNat * c := by simpa using hc
        rcases lt_trichotomy c 0 with h5 | h5 | h5
        · nlinarith
        · subst h5; simpa using this
        · nlinarith
    · simp only [hr']
      rcases h.c2 with h1 | ⟨h1, h2, h3⟩
      · left; omega
      · left; rw [Nat.mod_eq_of_lt h2]; exact h3
  · rw [hr']; exact hmodlt

/-- Complete description of `extended_euclid_invert` for moduli whose square fits. -/
theorem euclidInvert_spec (E : ExactBelow O B) (x n : BitVec w) (hx : x ≠ 0#w) (hxB : x.toNat < B)
    (hn : 1 < n.toNat) (hN : n.toNat * n.toNat ≤ B) :
    (Nat.gcd x.toNat n.toNat = 1 ∧ ∃ y, euclidInvert O x n = .ok y ∧ y.toNat < n.toNat ∧
        (y.toNat * x.toNat) % n.toNat = 1) ∨
    (Nat.gcd x.toNat n.toNat ≠ 1 ∧ euclidInvert O x n = panic) := by
  have hB := E.le
  have hpos := E.pos
  have hnB : n.toNat < B := by
    have : n.toNat * 2 ≤ n.toNat * n.toNat := Nat.mul_le_mul_left _ hn
    omega
  have h1w : (1#w).toNat = 1 := by
    rw [BitVec.toNat_ofNat]; exact Nat.mod_eq_of_lt (by omega)
  obtain ⟨s, hs, hI, hc⟩ := whileM_inv (EInv n.toNat x.toNat B) (fun s : EState w => s.newR.toNat)
    (cond := fun s => decide (s.newR ≠ 0#w)) (body := euclidStep O n)
    (fun s hP hc => euclidStep_inv E n x.toNat hN s hP (by simpa using hc))
    (fuel := 2 ^ (4 * w) + 1) (s := { t := 0#w, r := n, newT := 1#w, newR := x })
    { rB := hnB, nB := hxB, tN := by simp; omega, ntN := by simp only [h1w]; omega
      gcd := Nat.gcd_comm _ _
      bt := by simp
      bnt := by simp [h1w]
      c1 := Or.inr (Nat.le_refl _)
      c2 := by
        rcases Nat.lt_or_ge n.toNat x.toNat with h | h
        · right; exact ⟨by simp, h, Nat.le_refl _⟩
        · left; exact h }
    (by
      have h1 := x.isLt
      have : 2 ^ w ≤ 2 ^ (4 * w) := Nat.pow_le_pow_right (by omega) (by omega)
      simp only; omega)
  have hz : s.newR = 0#w := by simpa using hc
  have hg : s.r.toNat = Nat.gcd x.toNat n.toNat := by
    have := hI.gcd; rw [hz] at this; simpa using this
  have hlt1 : O.lt 1#w s.r = decide (1 < s.r.toNat) := by
    rw [E.lt _ _ (by omega) hI.rB, h1w]
  have hlt0 : O.lt s.t 0#w = false := by
    rw [E.lt _ _ (by have := hI.tN; omega) (by simp; omega)]; simp
  have hgpos : 0 < Nat.gcd x.toNat n.toNat := Nat.gcd_pos_of_pos_right _ (by omega)
  by_cases hg1 : Nat.gcd x.toNat n.toNat = 1
  · left
    refine ⟨hg1, s.t, ?_, hI.tN, ?_⟩
    · simp only [euclidInvert, hs, bind_ok, hlt1, hg, hg1, hlt0]
      simp
    · have := hI.bt
      rw [hg, hg1] at this
      have h2 : ((s.t.toNat * x.toNat : Nat) : Int) % (n.toNat : Int) = 1 := by
        have h4 : ((s.t.toNat : Int) * x.toNat) % n.toNat = (1 : Int) % n.toNat :=
          Int.emod_eq_emod_iff_emod_sub_eq_zero.mpr (Int.emod_eq_zero_of_dvd (by simpa using this))
        push_cast
        rw [h4]; exact Int.emod_eq_of_lt (by omega) (by omega)
      exact_mod_cast h2
  · right
    refine ⟨hg1, ?_⟩
    simp only [euclidInvert, hs, bind_ok, hlt1, hg]
    rw [if_pos ⟨by simp; omega, hx⟩]

end Hacspec.MachineInt
