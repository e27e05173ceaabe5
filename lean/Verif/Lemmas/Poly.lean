import Verif.Model.Poly
import Verif.Spec.Poly
import Verif.Props.Ints
import Mathlib.Algebra.Polynomial.Coeff
import Mathlib.Tactic.Ring
import Mathlib.Tactic.LinearCombination

/-! # Lemmas about the polynomial model -/

namespace Hacspec.Poly

open SecretInt MachineInt Hacspec.Spec Hacspec.Props Polynomial

variable {w : Nat}

/-! ## Coefficient arithmetic -/

/-- The arithmetic of a coefficient type is exact for results in `[lo, B)`. -/
structure Lawful (N : NumOps w) (val : BitVec w → Int) (lo B : Int) : Prop where
  lo_le : lo ≤ 0
  B_pos : 1 < B
  zero : val 0#w = 0
  one : val 1#w = 1
  inj : ∀ a b, val a = val b → a = b
  range : ∀ a, lo ≤ val a ∧ val a < B
  add : ∀ a b, lo ≤ val a + val b → val a + val b < B → ∃ c, N.add a b = .ok c ∧ val c = val a + val b
  sub : ∀ a b, lo ≤ val a - val b → val a - val b < B → ∃ c, N.sub a b = .ok c ∧ val c = val a - val b
  mul : ∀ a b, lo ≤ val a * val b → val a * val b < B → ∃ c, N.mul a b = .ok c ∧ val c = val a * val b
  addMod : ∀ a b n, 0 < val n → lo ≤ val a + val b → val a + val b < B →
    ∃ c, N.addMod a b n = .ok c ∧ val c = (val a + val b) % val n
  mulMod : ∀ a b n, 0 < val n → lo ≤ val a * val b → val a * val b < B →
    ∃ c, N.mulMod a b n = .ok c ∧ val c = (val a * val b) % val n
  subMod : ∀ a b n, 0 < val n → (lo ≤ val a - val b ∨ 0 ≤ val a) → (val a - val b < B) →
    val b + val n < B + 1 → ∃ c, N.subMod a b n = .ok c ∧ val c = (val a - val b) % val n
  mulModZero : ∀ a b, N.mulMod a b 0#w = panic
  inv : ∀ a n, 0 < val a → 1 < val n → val n * val n ≤ B → Int.gcd (val a) (val n) = 1 →
    ∃ c, euclidInvert N.toIntOps a n = .ok c ∧ 0 ≤ val c ∧ val c < val n ∧ val c * val a % val n = 1
  invPanic : ∀ a n, 0 < val a → 1 < val n → val n * val n ≤ B → Int.gcd (val a) (val n) ≠ 1 →
    euclidInvert N.toIntOps a n = panic
  divTotal : ∀ a b, N.div a b = panic ∨ ∃ c, N.div a b = .ok c
  divZero : ∀ b, b ≠ 0#w → N.div 0#w b = .ok 0#w
  invZero : ∀ n, euclidInvert N.toIntOps 0#w n = .ok 0#w

def uval (a : BitVec w) : Int := a.toNat

theorem lawful_unsigned (hw : 1 < w) (h128 : w ≤ 128) (N : NumOps w) (hN : N = numPubU ∨ N = numSecU) :
    Lawful N uval 0 (2 ^ w) := by
  have hB : ((2 : Int) ^ w) = ((2 ^ w : Nat) : Int) := pow_cast w
  have hB1 : 1 < 2 ^ w := Nat.one_lt_two_pow (by omega)
  have hne : ∀ n : BitVec w, 0 < uval n → n ≠ 0#w := by intro n h h'; subst h'; simp [uval] at h
  refine { lo_le := Int.le_refl 0, B_pos := by omega, zero := by simp [uval], one := ?_, inj := ?_, range := ?_,
           add := ?_, sub := ?_, mul := ?_, addMod := ?_, mulMod := ?_, subMod := ?_, mulModZero := ?_, inv := ?_, invPanic := ?_,
           divTotal := ?_, divZero := ?_, invZero := ?_ }
  · simp only [uval, BitVec.toNat_ofNat]; rw [Nat.mod_eq_of_lt hB1]; rfl
  · intro a b h; exact BitVec.eq_of_toNat_eq (by simp only [uval] at h; omega)
  · intro a; have := a.isLt; simp only [uval]; omega
  · intro a b h1 h2
    have h3 : a.toNat + b.toNat < 2 ^ w := by simp only [uval] at h2; omega
    rcases hN with h | h <;> subst h
    · obtain ⟨c, hc, hv⟩ := (C02_checked_unsigned a b).1 h3
      exact ⟨c, hc, by simp only [uval]; omega⟩
    · exact ⟨_, rfl, by simp only [uval, SecretInt.add, BitVec.toNat_add]; rw [Nat.mod_eq_of_lt h3]; omega⟩
  · intro a b h1 h2
    have h3 : b.toNat ≤ a.toNat := by simp only [uval] at h1; omega
    rcases hN with h | h <;> subst h
    · obtain ⟨c, hc, hv⟩ := (C02_checked_unsigned a b).2.2.1 h3
      exact ⟨c, hc, by simp only [uval]; omega⟩
    · refine ⟨_, rfl, ?_⟩
      have := a.isLt
      simp only [uval, SecretInt.sub, BitVec.toNat_sub]
      rw [show 2 ^ w - b.toNat + a.toNat = (a.toNat - b.toNat) + 2 ^ w by omega, Nat.add_mod_right,
        Nat.mod_eq_of_lt (by omega)]; omega
  · intro a b h1 h2
    have h3 : a.toNat * b.toNat < 2 ^ w := by simp only [uval] at h2; rw [hB] at h2; exact_mod_cast h2
    rcases hN with h | h <;> subst h
    · obtain ⟨c, hc, hv⟩ := (C02_checked_unsigned a b).2.2.2.2.1 h3
      exact ⟨c, hc, by simp only [uval]; rw [hv]; push_cast; rfl⟩
    · refine ⟨_, rfl, ?_⟩
      simp only [uval, SecretInt.mul, BitVec.toNat_mul]
      rw [Nat.mod_eq_of_lt h3]; push_cast; rfl
  · intro a b n hn h1 h2
    have h3 : a.toNat + b.toNat < 2 ^ w := by simp only [uval] at h2; omega
    obtain ⟨c, hc, hv⟩ := (C10_add_mul_mod_unsigned a b n).1 (hne n hn) h3
    refine ⟨c, ?_, by simp only [uval]; rw [hv]; push_cast; rfl⟩
    rcases hN with h | h <;> subst h <;> exact hc
  · intro a b n hn h1 h2
    have h3 : a.toNat * b.toNat < 2 ^ w := by simp only [uval] at h2; rw [hB] at h2; exact_mod_cast h2
    obtain ⟨c, hc, hv⟩ := (C10_add_mul_mod_unsigned a b n).2.2.1 (hne n hn) h3
    refine ⟨c, ?_, by simp only [uval]; rw [hv]; push_cast; rfl⟩
    rcases hN with h | h <;> subst h <;> exact hc
  · intro a b n hn _ h2 h3
    have hn' : 0 < n.toNat := by simp only [uval] at hn; omega
    have hex : ∃ k, b.toNat ≤ a.toNat + k * n.toNat :=
      ⟨b.toNat, Nat.le_trans (Nat.le_mul_of_pos_right _ hn') (Nat.le_add_left _ _)⟩
    classical
    obtain ⟨k, hk, hmin⟩ : ∃ k, b.toNat ≤ a.toNat + k * n.toNat ∧ ∀ j, j < k → a.toNat + j * n.toNat < b.toNat :=
      ⟨Nat.find hex, Nat.find_spec hex, fun j hj => Nat.lt_of_not_le (Nat.find_min hex hj)⟩
    have hfit : a.toNat + k * n.toNat < 2 ^ w := by
      rcases Nat.eq_zero_or_pos k with h0 | h0
      · subst h0; have := a.isLt; simpa using this
      · have := hmin (k - 1) (by omega)
        have e : k * n.toNat = (k - 1) * n.toNat + n.toNat := by
          conv => lhs; rw [show k = (k - 1) + 1 by omega]
          rw [Nat.add_mul, Nat.one_mul]
        simp only [uval] at h3
        omega
    obtain ⟨c, hc, hv⟩ := ((C10_sub_mod_unsigned a b n).1 (by omega) k hk hmin).1 hfit
    refine ⟨c, ?_, hv⟩
    rcases hN with h | h <;> subst h <;> exact hc
  · intro a b
    rcases hN with h | h <;> subst h <;> exact (C10_add_mul_mod_unsigned a b 0#w).2.2.2.1 (Or.inl rfl)
  · intro a n ha hn hnn hg
    have hO : (N.toIntOps = pubU ∨ N.toIntOps = secU) ∧ 2 ^ w = 2 ^ w ∨
        (N.toIntOps = pubS ∨ N.toIntOps = secS) ∧ 2 ^ w = 2 ^ (w - 1) := by
      left; refine ⟨?_, rfl⟩; rcases hN with h | h <;> subst h <;> simp [numPubU, numSecU]
    obtain ⟨c, h1, h2, h3⟩ := (C11_inv_partial hw N.toIntOps (2 ^ w) hO a n (by simp only [uval] at ha; omega) a.isLt
      (by simp only [uval] at hn; omega) (by simp only [uval] at hnn; rw [hB] at hnn; exact_mod_cast hnn)).1
      (by simpa [uval, Int.gcd] using hg)
    refine ⟨c, h1, by simp [uval], by simp only [uval]; omega, ?_⟩
    simp only [uval]
    exact_mod_cast h3
  · intro a n ha hn hnn hg
    have hO : (N.toIntOps = pubU ∨ N.toIntOps = secU) ∧ 2 ^ w = 2 ^ w ∨
        (N.toIntOps = pubS ∨ N.toIntOps = secS) ∧ 2 ^ w = 2 ^ (w - 1) := by
      left; refine ⟨?_, rfl⟩; rcases hN with h | h <;> subst h <;> simp [numPubU, numSecU]
    exact (C11_inv_partial hw N.toIntOps (2 ^ w) hO a n (by simp only [uval] at ha; omega) a.isLt
      (by simp only [uval] at hn; omega) (by simp only [uval] at hnn; rw [hB] at hnn; exact_mod_cast hnn)).2
      (by simpa [uval, Int.gcd] using hg)
  · intro a b
    rcases hN with h | h <;> subst h <;> simp only [numPubU, numSecU, pubU, secU, divU] <;> split <;> simp
  · intro b hb
    rcases hN with h | h <;> subst h <;> simp only [numPubU, numSecU, pubU, secU, divU, if_neg hb] <;> simp
  · intro n
    apply C11_inv_zero_refuted
    rcases hN with h | h <;> subst h <;> simp [numPubU, numSecU, pubU, secU]

theorem lawful_signed (hw : 1 < w) (h128 : w ≤ 128) (N : NumOps w) (hN : N = numPubS ∨ N = numSecS) :
    Lawful N BitVec.toInt (-(2 ^ (w - 1))) (2 ^ (w - 1)) := by
  have hw0 : 0 < w := by omega
  have hB : ((2 : Int) ^ (w - 1)) = ((2 ^ (w - 1) : Nat) : Int) := pow_cast (w - 1)
  have hB1 : 1 < 2 ^ (w - 1) := Nat.one_lt_two_pow (by omega)
  have hBB : 2 ^ w = 2 * 2 ^ (w - 1) := by rw [← Nat.pow_succ']; congr 1; omega
  have h127 : 2 ^ (w - 1) ≤ 2 ^ 127 := Nat.pow_le_pow_right (by omega) (by omega)
  have hrange : ∀ a : BitVec w, -(2 ^ (w - 1) : Int) ≤ a.toInt ∧ a.toInt < 2 ^ (w - 1) := by
    intro a
    have h1 := BitVec.le_two_mul_toInt (x := a)
    have h2 := BitVec.two_mul_toInt_lt (x := a)
    have hpc : ((2 : Int) ^ w) = ((2 ^ w : Nat) : Int) := pow_cast w
    rw [hpc, hBB] at h1 h2
    omega
  have hfits : ∀ z : Int, -(2 ^ (w - 1) : Int) ≤ z → z < 2 ^ (w - 1) → FitsI128 z := by
    intro z h1 h2
    unfold FitsI128
    generalize 2 ^ (w - 1) = k at *
    omega
  have htn : ∀ a : BitVec w, 0 ≤ a.toInt → (a.toNat : Int) = a.toInt := by
    intro a h
    have := BitVec.toInt_eq_toNat_cond a
    have hlt := a.isLt
    split at this <;> omega
  refine { lo_le := by omega, B_pos := by omega, zero := by simp, one := ?_, inj := ?_, range := hrange,
           add := ?_, sub := ?_, mul := ?_, addMod := ?_, mulMod := ?_, subMod := ?_, mulModZero := ?_, inv := ?_, invPanic := ?_,
           divTotal := ?_, divZero := ?_, invZero := ?_ }
  · rw [BitVec.toInt_eq_toNat_cond, BitVec.toNat_ofNat, Nat.mod_eq_of_lt (by omega)]
    rw [if_pos (by omega)]; rfl
  · intro a b h; exact BitVec.eq_of_toInt_eq h
  · intro a b h1 h2
    have hv := toInt_eq_of_fits hw0 ⟨h1, h2⟩
    rcases hN with h | h <;> subst h
    · exact ⟨_, (((C02_checked_signed hw0 a b).1 _ rfl).1 ⟨h1, h2⟩).choose_spec⟩
    · refine ⟨_, rfl, ?_⟩
      rw [SecretInt.add, BitVec.toInt_add]; exact hv
  · intro a b h1 h2
    have hv := toInt_eq_of_fits hw0 ⟨h1, h2⟩
    rcases hN with h | h <;> subst h
    · exact ⟨_, (((C02_checked_signed hw0 a b).2.1 _ rfl).1 ⟨h1, h2⟩).choose_spec⟩
    · refine ⟨_, rfl, ?_⟩
      rw [SecretInt.sub, BitVec.toInt_sub]; exact hv
  · intro a b h1 h2
    have hv := toInt_eq_of_fits hw0 ⟨h1, h2⟩
    rcases hN with h | h <;> subst h
    · exact ⟨_, (((C02_checked_signed hw0 a b).2.2 _ rfl).1 ⟨h1, h2⟩).choose_spec⟩
    · refine ⟨_, rfl, ?_⟩
      rw [SecretInt.mul, BitVec.toInt_mul]; exact hv
  · intro a b n hn h1 h2
    obtain ⟨c, hc, hv⟩ := ((C10_signed hw0 h128 a b n hn).1 _ rfl).1 (hfits _ h1 h2)
    exact ⟨c, by rcases hN with h | h <;> subst h <;> exact hc, hv⟩
  · intro a b n hn h1 h2
    obtain ⟨c, hc, hv⟩ := ((C10_signed hw0 h128 a b n hn).2.2.1 _ rfl).1 (hfits _ h1 h2)
    exact ⟨c, by rcases hN with h | h <;> subst h <;> exact hc, hv⟩
  · intro a b n hn h0 h1 h2
    obtain ⟨c, hc, hv⟩ := ((C10_signed hw0 h128 a b n hn).2.1 _ rfl).1 (hfits _ (by
      have := hrange b
      rcases h0 with h | h
      · exact h
      · omega) h1)
    exact ⟨c, by rcases hN with h | h <;> subst h <;> exact hc, hv⟩
  · intro a b
    have h0 : mulModS a b (0#w) = panic := by
      unfold mulModS i128
      split
      · rw [bind_ok, signedMod, require_false (by simp), bind_panic, bind_panic]
      · rw [bind_panic]
    rcases hN with h | h <;> subst h <;> exact h0
  · intro a n ha hn hnn hg
    have hO : (N.toIntOps = pubU ∨ N.toIntOps = secU) ∧ 2 ^ (w - 1) = 2 ^ w ∨
        (N.toIntOps = pubS ∨ N.toIntOps = secS) ∧ 2 ^ (w - 1) = 2 ^ (w - 1) := by
      right; refine ⟨?_, rfl⟩; rcases hN with h | h <;> subst h <;> simp [numPubS, numSecS]
    have ha' := htn a (by omega)
    have hn' := htn n (by omega)
    obtain ⟨c, h1, h2, h3⟩ := (C11_inv_partial hw N.toIntOps (2 ^ (w - 1)) hO a n (by omega)
      (by have := hrange a; omega) (by omega)
      (by rw [← hn'] at hnn; rw [hB] at hnn; exact_mod_cast hnn)).1
      (by rw [← ha', ← hn'] at hg; simpa [Int.gcd] using hg)
    have hnr := hrange n
    have hc' : (c.toNat : Int) = c.toInt := by
      have := BitVec.toInt_eq_toNat_cond c
      have hlt := c.isLt
      rw [if_pos (by omega)] at this
      omega
    refine ⟨c, h1, by omega, by omega, ?_⟩
    rw [← hc', ← ha', ← hn']
    exact_mod_cast h3
  · intro a n ha hn hnn hg
    have hO : (N.toIntOps = pubU ∨ N.toIntOps = secU) ∧ 2 ^ (w - 1) = 2 ^ w ∨
        (N.toIntOps = pubS ∨ N.toIntOps = secS) ∧ 2 ^ (w - 1) = 2 ^ (w - 1) := by
      right; refine ⟨?_, rfl⟩; rcases hN with h | h <;> subst h <;> simp [numPubS, numSecS]
    have ha' := htn a (by omega)
    have hn' := htn n (by omega)
    exact (C11_inv_partial hw N.toIntOps (2 ^ (w - 1)) hO a n (by omega)
      (by have := hrange a; omega) (by omega)
      (by rw [← hn'] at hnn; rw [hB] at hnn; exact_mod_cast hnn)).2
      (by rw [← ha', ← hn'] at hg; simpa [Int.gcd] using hg)
  · intro a b
    rcases hN with h | h <;> subst h <;> simp only [numPubS, numSecS, pubS, secS, divS] <;> split <;>
      [skip; split; skip; split] <;> simp
  · intro b hb
    have h0 : fitsS w 0 := by unfold fitsS; omega
    rcases hN with h | h <;> subst h <;> simp [numPubS, numSecS, pubS, secS, divS, hb, h0]
  · intro n
    apply C11_inv_zero_refuted
    rcases hN with h | h <;> subst h <;> simp [numPubS, numSecS, pubS, secS]

/-! ## Coefficients of lists -/

/-- The `k`-th coefficient, zero beyond the end. -/
def at' (val : BitVec w → Int) (l : List (BitVec w)) (k : Nat) : Int := ((l.map val)[k]?).getD 0

theorem coeff_polyOf (R : Type) [CommRing R] (l : List Int) (k : Nat) :
    (polyOf R l).coeff k = ((l[k]?.getD 0 : Int) : R) := by
  induction l generalizing k with
  | nil => simp [polyOf]
  | cons a l ih =>
    cases k with
    | zero => simp [polyOf]
    | succ k =>
      rw [polyOf, Polynomial.coeff_add, Polynomial.coeff_C_succ, mul_comm X, Polynomial.coeff_mul_X, ih]
      simp

variable {N : NumOps w} {val : BitVec w → Int} {lo B : Int}

theorem at_lt {l : List (BitVec w)} {k : Nat} (h : k < l.length) : at' val l k = val l[k] := by
  simp [at', h]

theorem at_ge {l : List (BitVec w)} {k : Nat} (h : l.length ≤ k) : at' val l k = 0 := by
  simp [at', h]

theorem at_cases {P : Int → Prop} {l : List (BitVec w)} (h0 : P 0) (h : ∀ c ∈ l, P (val c)) (k : Nat) :
    P (at' val l k) := by
  by_cases hk : k < l.length
  · rw [at_lt hk]; exact h _ (List.getElem_mem hk)
  · rw [at_ge (by omega)]; exact h0

theorem at_replicate (h0 : val 0#w = 0) (n k : Nat) : at' val (List.replicate n 0#w) k = 0 :=
  at_cases (P := fun z => z = 0) rfl (fun c hc => by rw [List.eq_of_mem_replicate hc]; exact h0) k

theorem at_set {l : List (BitVec w)} {i : Nat} {c : BitVec w} (hi : i < l.length) (k : Nat) :
    at' val (l.set i c) k = if k = i then val c else at' val l k := by
  by_cases h : k = i
  · subst h; simp [at', hi]
  · rw [if_neg h]; simp [at', List.getElem?_set_ne (Ne.symm h)]

theorem at_pad (h0 : val 0#w = 0) (l : List (BitVec w)) (n k : Nat) : at' val (pad l n) k = at' val l k := by
  unfold pad
  by_cases h : k < l.length
  · rw [at_lt h, at_lt (by simp; omega)]; simp [List.getElem_append_left h]
  · rw [at_ge (Nat.le_of_not_lt h)]
    unfold at'
    rw [List.map_append, List.getElem?_append_right (by simpa using h)]
    have := at_replicate (val := val) h0 (n - l.length) (k - l.length)
    simpa [at'] using this

theorem length_pad (l : List (BitVec w)) (n : Nat) : (pad l n).length = max l.length n := by
  simp [pad]; omega

theorem length_overwrite (o v : List (BitVec w)) : (overwrite o v).length = o.length := by
  induction o generalizing v with
  | nil => cases v <;> rfl
  | cons a o ih => cases v <;> simp [overwrite, ih]

theorem at_overwrite (o v : List (BitVec w)) (k : Nat) :
    at' val (overwrite o v) k = if k < min o.length v.length then at' val v k else at' val o k := by
  induction o generalizing v k with
  | nil => cases v <;> simp [overwrite]
  | cons a o ih =>
    cases v with
    | nil => simp [overwrite]
    | cons b v =>
      cases k with
      | zero => simp [overwrite, at']
      | succ k =>
        have := ih v k
        simp only [at', overwrite, List.map_cons, List.getElem?_cons_succ, List.length_cons] at this ⊢
        rw [this]
        by_cases h : k < min o.length v.length
        · rw [if_pos h, if_pos (by omega)]
        · rw [if_neg h, if_neg (by omega)]

theorem at_makeFixedLength (h0 : val 0#w = 0) (v : List (BitVec w)) (t k : Nat) :
    at' val (makeFixedLength v t) k = if k < t then at' val v k else 0 := by
  unfold makeFixedLength
  rw [at_overwrite, at_replicate h0, List.length_replicate]
  by_cases h : k < t
  · rw [if_pos h]
    by_cases h2 : k < v.length
    · rw [if_pos (by omega)]
    · rw [if_neg (by omega), at_ge (by omega)]
  · rw [if_neg h, if_neg (by omega)]

theorem length_makeFixedLength (v : List (BitVec w)) (t : Nat) : (makeFixedLength v t).length = t := by
  simp [makeFixedLength, length_overwrite]

theorem monomial_ok (c : BitVec w) (d : Nat) :
    monomial c d = .ok ((List.replicate (d + 1) 0#w).set d c) := by
  rw [monomial, setIdx_ok (by simp)]

/-- The polynomial of a coefficient list of machine integers. -/
noncomputable def pol (R : Type) [CommRing R] (val : BitVec w → Int) (l : List (BitVec w)) : R[X] :=
  polyOf R (l.map val)

theorem coeff_pol (R : Type) [CommRing R] (l : List (BitVec w)) (k : Nat) :
    (pol R val l).coeff k = ((at' val l k : Int) : R) := coeff_polyOf R _ k

/-! ## Element-wise operations -/

theorem zipM_ok {op : BitVec w → BitVec w → M (BitVec w)} {Q : BitVec w → BitVec w → BitVec w → Prop}
    {xs ys : List (BitVec w)} (hl : xs.length = ys.length)
    (h : ∀ k (h1 : k < xs.length) (h2 : k < ys.length), ∃ c, op xs[k] ys[k] = .ok c ∧ Q xs[k] ys[k] c) :
    ∃ r, zipM op xs ys = .ok r ∧ r.length = xs.length ∧
      ∀ k (h1 : k < xs.length) (h2 : k < ys.length) (h3 : k < r.length), Q xs[k] ys[k] r[k] := by
  induction xs generalizing ys with
  | nil => exact ⟨[], by cases ys <;> simp [zipM], rfl, by simp⟩
  | cons a xs ih =>
    cases ys with
    | nil => simp at hl
    | cons b ys =>
      obtain ⟨c, hc, hq⟩ := h 0 (by simp) (by simp)
      simp only [List.getElem_cons_zero] at hc hq
      obtain ⟨r, hr, hrl, hrq⟩ := ih (ys := ys) (by simpa using hl) (fun k h1 h2 => by
        have := h (k + 1) (by simpa using h1) (by simpa using h2)
        simpa using this)
      refine ⟨c :: r, by simp [zipM, hc, hr], by simp [hrl], ?_⟩
      intro k h1 h2 h3
      cases k with
      | zero => exact hq
      | succ k => simpa using hrq k (by simpa using h1) (by simpa using h2) (by simpa using h3)

theorem zip_pad_ok (h0 : val 0#w = 0) {op : BitVec w → BitVec w → M (BitVec w)} {F : Int → Int → Int}
    (hF : F 0 0 = 0) {x y : List (BitVec w)}
    (h : ∀ k a b, k < max x.length y.length → val a = at' val x k → val b = at' val y k →
      ∃ c, op a b = .ok c ∧ val c = F (val a) (val b)) :
    ∃ r, zipM op (normalize x y).1 (normalize x y).2 = .ok r ∧ r.length = max x.length y.length ∧
      ∀ k, at' val r k = F (at' val x k) (at' val y k) := by
  have hlx : (normalize x y).1.length = max x.length y.length := by
    simp only [normalize, length_pad]; omega
  have hly : (normalize x y).2.length = max x.length y.length := by
    simp only [normalize, length_pad]; omega
  have hax : ∀ k, at' val (normalize x y).1 k = at' val x k := fun k => by simp only [normalize, at_pad h0]
  have hay : ∀ k, at' val (normalize x y).2 k = at' val y k := fun k => by simp only [normalize, at_pad h0]
  obtain ⟨r, hr, hrl, hrq⟩ := zipM_ok (op := op) (Q := fun a b c => val c = F (val a) (val b))
    (xs := (normalize x y).1) (ys := (normalize x y).2) (by omega) (fun k h1 h2 =>
      h k _ _ (by omega) (by rw [← hax, at_lt h1]) (by rw [← hay, at_lt h2]))
  refine ⟨r, hr, by omega, fun k => ?_⟩
  by_cases hk : k < r.length
  · rw [at_lt hk, hrq k (by omega) (by omega) hk, ← hax, ← hay, at_lt, at_lt]
  · rw [at_ge (by omega), at_ge (l := x) (by omega), at_ge (l := y) (by omega), hF]

theorem length_normalize_eq (x y : List (BitVec w)) : (normalize x y).1.length = (normalize x y).2.length := by
  simp only [normalize, length_pad]; omega

theorem polyAdd_ok (L : Lawful N val lo B) {x y : List (BitVec w)} {n : BitVec w} (hn : 0 < val n)
    (h : ∀ k, k < max x.length y.length →
      lo ≤ at' val x k + at' val y k ∧ at' val x k + at' val y k < B) :
    ∃ r, polyAdd N x y n = .ok r ∧ r.length = max x.length y.length ∧
      ∀ k, at' val r k = (at' val x k + at' val y k) % val n := by
  have hn0 : n ≠ 0#w := by intro h; subst h; rw [L.zero] at hn; omega
  rw [polyAdd, require_true (length_normalize_eq x y), bind_ok]
  simp only [hn0, if_false]
  exact zip_pad_ok (F := fun a b => (a + b) % val n) L.zero (by simp)
    (fun k a b hk ha hb => L.addMod a b n hn (by rw [ha, hb]; exact (h k hk).1) (by rw [ha, hb]; exact (h k hk).2))

theorem polyAdd_int_ok (L : Lawful N val lo B) {x y : List (BitVec w)}
    (h : ∀ k, k < max x.length y.length →
      lo ≤ at' val x k + at' val y k ∧ at' val x k + at' val y k < B) :
    ∃ r, polyAdd N x y 0#w = .ok r ∧ r.length = max x.length y.length ∧
      ∀ k, at' val r k = at' val x k + at' val y k := by
  rw [polyAdd, require_true (length_normalize_eq x y), bind_ok]
  simp only [if_true]
  exact zip_pad_ok (F := fun a b => a + b) L.zero (by simp)
    (fun k a b hk ha hb => L.add a b (by rw [ha, hb]; exact (h k hk).1) (by rw [ha, hb]; exact (h k hk).2))

theorem polySub_ok (L : Lawful N val lo B) {x y : List (BitVec w)} {n : BitVec w} (hn : 0 < val n)
    (h : ∀ k, k < max x.length y.length → (lo ≤ at' val x k - at' val y k ∨ 0 ≤ at' val x k) ∧
      at' val x k - at' val y k < B ∧ at' val y k + val n < B + 1) :
    ∃ r, polySub N x y n = .ok r ∧ r.length = max x.length y.length ∧
      ∀ k, at' val r k = (at' val x k - at' val y k) % val n := by
  have hn0 : n ≠ 0#w := by intro h; subst h; rw [L.zero] at hn; omega
  rw [polySub, require_true (length_normalize_eq x y), bind_ok]
  simp only [hn0, if_false]
  exact zip_pad_ok (F := fun a b => (a - b) % val n) L.zero (by simp)
    (fun k a b hk ha hb => L.subMod a b n hn (by rw [ha, hb]; exact (h k hk).1) (by rw [ha, hb]; exact (h k hk).2.1)
      (by rw [hb]; exact (h k hk).2.2))

theorem polySub_int_ok (L : Lawful N val lo B) {x y : List (BitVec w)}
    (h : ∀ k, k < max x.length y.length →
      lo ≤ at' val x k - at' val y k ∧ at' val x k - at' val y k < B) :
    ∃ r, polySub N x y 0#w = .ok r ∧ r.length = max x.length y.length ∧
      ∀ k, at' val r k = at' val x k - at' val y k := by
  rw [polySub, require_true (length_normalize_eq x y), bind_ok]
  simp only [if_true]
  exact zip_pad_ok (F := fun a b => a - b) L.zero (by simp)
    (fun k a b hk ha hb => L.sub a b (by rw [ha, hb]; exact (h k hk).1) (by rw [ha, hb]; exact (h k hk).2))

/-- From coefficients in `[0, n)` for all positions to list elements. -/
theorem reduced_of_at {r : List (BitVec w)} {n : Int} (h : ∀ k, 0 ≤ at' val r k ∧ at' val r k < n) :
    ∀ c ∈ r, 0 ≤ val c ∧ val c < n := by
  intro c hc
  obtain ⟨k, hk, rfl⟩ := List.mem_iff_getElem.1 hc
  have := h k; rwa [at_lt hk] at this

/-! ## Multiplication -/

theorem forEach_sum {R : Type} [CommRing R] {α σ : Type} (I : R[X] → σ → Prop) (d : α → R[X])
    {f : α → σ → M σ} {as : List α}
    (hstep : ∀ a ∈ as, ∀ P s, I P s → ∃ s', f a s = .ok s' ∧ I (P + d a) s') :
    ∀ {P s}, I P s → ∃ s', forEach as f s = .ok s' ∧ I (P + (as.map d).sum) s' := by
  induction as with
  | nil => intro P s h; exact ⟨s, rfl, by simpa using h⟩
  | cons a as ih =>
    intro P s h
    obtain ⟨s1, h1, h2⟩ := hstep a (by simp) P s h
    obtain ⟨s2, h3, h4⟩ := ih (fun a' ha' => hstep a' (by simp [ha'])) h2
    refine ⟨s2, by simp only [forEach, h1, bind_ok, h3], ?_⟩
    rw [List.map_cons, List.sum_cons, ← add_assoc]; exact h4

/-- Polynomial of sparse terms. -/
noncomputable def spOf (R : Type) [CommRing R] (val : BitVec w → Int) (p : Nat × BitVec w) : R[X] :=
  C ((val p.2 : Int) : R) * X ^ p.1

theorem sum_nonzeros (h0 : val 0#w = 0) (R : Type) [CommRing R] (l : List (BitVec w)) (i : Nat) :
    ((nonzeros i l).map (spOf R val)).sum = X ^ i * pol R val l := by
  induction l generalizing i with
  | nil => simp [nonzeros, pol, polyOf]
  | cons a l ih =>
    have e : X ^ i * pol R val (a :: l) = C ((val a : Int) : R) * X ^ i + X ^ (i + 1) * pol R val l := by
      simp only [pol, List.map_cons, polyOf]; ring
    rw [e, ← ih]
    by_cases h : a = 0#w
    · subst h; rw [nonzeros, if_neg (by simp), h0]; simp
    · rw [nonzeros, if_pos h]; simp [spOf]

theorem sum_enum (R : Type) [CommRing R] (l : List (BitVec w)) (i : Nat) :
    ((l.zipIdx i).map (fun p => spOf R val (p.2, p.1))).sum = X ^ i * pol R val l := by
  induction l generalizing i with
  | nil => simp [pol, polyOf]
  | cons a l ih =>
    rw [List.zipIdx_cons, List.map_cons, List.sum_cons, ih]
    simp only [spOf, pol, List.map_cons, polyOf]; ring

theorem mem_nonzeros {l : List (BitVec w)} {i : Nat} {p : Nat × BitVec w} (h : p ∈ nonzeros i l) :
    i ≤ p.1 ∧ p.1 < i + l.length ∧ p.2 ∈ l := by
  induction l generalizing i with
  | nil => simp [nonzeros] at h
  | cons a l ih =>
    unfold nonzeros at h
    have key : p ∈ nonzeros (i + 1) l → i ≤ p.1 ∧ p.1 < i + (a :: l).length ∧ p.2 ∈ a :: l := by
      intro h; have := ih h; simp only [List.length_cons]; exact ⟨by omega, by omega, by simp [this.2.2]⟩
    split at h
    · rcases List.mem_cons.1 h with h | h
      · subst h; simp
      · exact key h
    · exact key h

theorem sum_map_mul {R : Type} [CommRing R] {α : Type} (l : List α) (f : α → R) (c : R) :
    (l.map fun a => c * f a).sum = c * (l.map f).sum := by
  induction l with
  | nil => simp
  | cons a l ih => simp [ih, mul_add]

/-- Invariant of the accumulator: fixed length, reduced, denotes `P`. -/
def Acc (val : BitVec w → Int) (m len : Nat) (P : (ZMod m)[X]) (out : List (BitVec w)) : Prop :=
  out.length = len ∧ (∀ k, 0 ≤ at' val out k ∧ at' val out k < m) ∧ pol (ZMod m) val out = P

theorem acc_replicate (L : Lawful N val lo B) {m : Nat} (hm : 0 < m) (len : Nat) :
    Acc val m len 0 (List.replicate len 0#w) := by
  refine ⟨by simp, fun k => by rw [at_replicate L.zero]; omega, ?_⟩
  ext k
  rw [coeff_pol, at_replicate L.zero]; simp

theorem pol_set {R : Type} [CommRing R] {out : List (BitVec w)} {i : Nat} {c : BitVec w} {d : R}
    (hi : i < out.length) (hd : ((val c : Int) : R) = ((at' val out i : Int) : R) + d) :
    pol R val (out.set i c) = pol R val out + C d * X ^ i := by
  ext k
  rw [Polynomial.coeff_add, coeff_pol, coeff_pol, at_set hi, Polynomial.coeff_C_mul, Polynomial.coeff_X_pow]
  by_cases h : k = i
  · subst h; rw [if_pos rfl, if_pos rfl, hd, mul_one]
  · rw [if_neg h, if_neg h, mul_zero, add_zero]

theorem mulStep_ok (L : Lawful N val lo B) {n : BitVec w} {m : Nat} (hm : 0 < m) (hn : val n = m)
    (h2 : 2 * val n ≤ B + 1) {len : Nat} {a b : Nat × BitVec w} (hlen : a.1 + b.1 < len)
    (hfit : lo ≤ val a.2 * val b.2 ∧ val a.2 * val b.2 < B) (P : (ZMod m)[X]) (out : List (BitVec w))
    (h : Acc val m len P out) :
    ∃ out', mulStep N n a b out = .ok out' ∧ Acc val m len (P + spOf (ZMod m) val a * spOf (ZMod m) val b) out' := by
  obtain ⟨hl, hr, hp⟩ := h
  have hlen' : a.1 + b.1 < out.length := by omega
  obtain ⟨p, hpm, hpv⟩ := L.mulMod a.2 b.2 n (by omega) hfit.1 hfit.2
  have hp0 := Int.emod_nonneg (val a.2 * val b.2) (show val n ≠ 0 by omega)
  have hp1 := Int.emod_lt_of_pos (val a.2 * val b.2) (show 0 < val n by omega)
  have ho := hr (a.1 + b.1)
  rw [at_lt hlen'] at ho
  obtain ⟨s, hsm, hsv⟩ := L.addMod out[a.1 + b.1] p n (by omega) (by have := L.lo_le; omega) (by omega)
  have hs0 := Int.emod_nonneg (val out[a.1 + b.1] + val p) (show val n ≠ 0 by omega)
  have hs1 := Int.emod_lt_of_pos (val out[a.1 + b.1] + val p) (show 0 < val n by omega)
  refine ⟨out.set (a.1 + b.1) s, ?_, by simpa using hl, ?_, ?_⟩
  · unfold mulStep
    rw [idx_ok hlen', bind_ok, hpm, bind_ok, hsm, bind_ok, setIdx_ok hlen']
  · intro k
    rw [at_set hlen']
    by_cases h : k = a.1 + b.1
    · rw [if_pos h]; omega
    · rw [if_neg h]; exact hr k
  · rw [pol_set (d := ((val a.2 * val b.2 : Int) : ZMod m)) hlen', hp]
    · unfold spOf; push_cast; rw [Polynomial.C_mul]; ring
    · rw [hsv, hpv, hn, ZMod.intCast_mod, Int.cast_add, ZMod.intCast_mod, at_lt hlen']

theorem mul_lists_ok (L : Lawful N val lo B) {n : BitVec w} {m : Nat} (hm : 0 < m) (hn : val n = m)
    (h2 : 2 * val n ≤ B + 1) {len : Nat} (xs ys : List (Nat × BitVec w))
    (hlen : ∀ a ∈ xs, ∀ b ∈ ys, a.1 + b.1 < len)
    (hfit : ∀ a ∈ xs, ∀ b ∈ ys, lo ≤ val a.2 * val b.2 ∧ val a.2 * val b.2 < B) :
    ∃ out, forEach xs (fun a out => forEach ys (fun b out => mulStep N n a b out) out)
      (List.replicate len 0#w) = .ok out ∧
      Acc val m len ((xs.map (spOf (ZMod m) val)).sum * (ys.map (spOf (ZMod m) val)).sum) out := by
  have := forEach_sum (R := ZMod m) (Acc val m len)
    (fun a => spOf (ZMod m) val a * (ys.map (spOf (ZMod m) val)).sum) (as := xs)
    (f := fun a out => forEach ys (fun b out => mulStep N n a b out) out) (fun a ha P s hs => by
      have := forEach_sum (R := ZMod m) (Acc val m len) (fun b => spOf (ZMod m) val a * spOf (ZMod m) val b) (as := ys)
        (f := fun b out => mulStep N n a b out)
        (fun b hb P s hs => mulStep_ok L hm hn h2 (hlen a ha b hb) (hfit a ha b hb) P s hs) hs
      rw [sum_map_mul] at this
      exact this) (acc_replicate L hm len)
  obtain ⟨out, h1, h3⟩ := this
  refine ⟨out, h1, ?_⟩
  have e : (xs.map fun a => spOf (ZMod m) val a * (ys.map (spOf (ZMod m) val)).sum).sum
      = (xs.map (spOf (ZMod m) val)).sum * (ys.map (spOf (ZMod m) val)).sum := by
    rw [mul_comm, ← sum_map_mul]; congr 1; apply List.map_congr_left; intro a _; ring
  rw [e, zero_add] at h3
  exact h3

theorem polyMul_ok (L : Lawful N val lo B) {n : BitVec w} {m : Nat} (hm : 0 < m) (hn : val n = m)
    (h2 : 2 * val n ≤ B + 1) (x y : List (BitVec w))
    (hfit : ∀ a ∈ x, ∀ b ∈ y, lo ≤ val a * val b ∧ val a * val b < B) :
    ∃ out, polyMul N x y n = .ok out ∧
      Acc val m (x.length + y.length) (pol (ZMod m) val x * pol (ZMod m) val y) out := by
  obtain ⟨out, h1, h3⟩ := mul_lists_ok L hm hn h2 (len := x.length + y.length) (nonzeros 0 x) (nonzeros 0 y)
    (fun a ha b hb => by have := mem_nonzeros ha; have := mem_nonzeros hb; omega)
    (fun a ha b hb => hfit _ (mem_nonzeros ha).2.2 _ (mem_nonzeros hb).2.2)
  rw [sum_nonzeros L.zero, sum_nonzeros L.zero, pow_zero, one_mul, one_mul] at h3
  exact ⟨out, h1, h3⟩

/-! ## Leading coefficient -/

theorem leadLoop_spec (h0 : val 0#w = 0) (l : List (BitVec w)) (i : Nat) (s : Nat × BitVec w) :
    (leadLoop i l s = s ∧ ∀ k, at' val l k = 0) ∨
    ∃ d, d < l.length ∧ (leadLoop i l s).1 = i + d ∧ (leadLoop i l s).2 ≠ 0#w ∧
      val (leadLoop i l s).2 = at' val l d ∧ ∀ k, d < k → at' val l k = 0 := by
  induction l generalizing i s with
  | nil => left; simp [leadLoop, at']
  | cons a l ih =>
    rw [leadLoop]
    have hsucc : ∀ k, at' val (a :: l) (k + 1) = at' val l k := fun k => by simp [at']
    have hzero : at' val (a :: l) 0 = val a := by simp [at']
    rcases ih (i + 1) (if a ≠ 0#w then (i, a) else s) with ⟨h1, h2⟩ | ⟨d, h1, h2, h3, h4, h5⟩
    · by_cases ha : a = 0#w
      · left
        subst ha
        refine ⟨by simpa using h1, fun k => ?_⟩
        cases k with
        | zero => rw [hzero, h0]
        | succ k => rw [hsucc, h2]
      · right
        rw [if_pos ha] at h1 ⊢
        refine ⟨0, by simp, by rw [h1]; rfl, by rw [h1]; exact ha, by rw [h1, hzero], ?_⟩
        intro k hk
        obtain ⟨k, rfl⟩ : ∃ j, k = j + 1 := ⟨k - 1, by omega⟩
        rw [hsucc, h2]
    · right
      refine ⟨d + 1, by simpa using h1, by omega, h3, by rw [h4, hsucc], ?_⟩
      intro k hk
      obtain ⟨k, rfl⟩ : ∃ j, k = j + 1 := ⟨k - 1, by omega⟩
      rw [hsucc, h5 k (by omega)]

/-- `leading_coefficient`: the highest index with a non-zero coefficient, and that coefficient. -/
theorem lead_spec (h0 : val 0#w = 0) (l : List (BitVec w)) :
    (leadingCoefficient l = (0, 0#w) ∧ ∀ k, at' val l k = 0) ∨
    ((leadingCoefficient l).1 < l.length ∧ (leadingCoefficient l).2 ≠ 0#w ∧
      val (leadingCoefficient l).2 = at' val l (leadingCoefficient l).1 ∧
      ∀ k, (leadingCoefficient l).1 < k → at' val l k = 0) := by
  rcases leadLoop_spec h0 l 0 (0, 0#w) with h | ⟨d, h1, h2, h3, h4, h5⟩
  · exact Or.inl h
  · right
    rw [Nat.zero_add] at h2
    unfold leadingCoefficient
    rw [h2]
    exact ⟨h1, h3, h4, h5⟩

/-! ## Division -/

theorem pol_monomial {R : Type} [CommRing R] (h0 : val 0#w = 0) (t : BitVec w) (d : Nat) :
    pol R val ((List.replicate (d + 1) 0#w).set d t) = C ((val t : Int) : R) * X ^ d := by
  rw [pol_set (d := ((val t : Int) : R)) (by simp) (by rw [at_replicate h0]; simp)]
  have : pol R val (List.replicate (d + 1) 0#w) = 0 := by
    ext k; rw [coeff_pol, at_replicate h0]; simp
  rw [this, zero_add]

theorem at_monomial (h0 : val 0#w = 0) (t : BitVec w) (d k : Nat) :
    at' val ((List.replicate (d + 1) 0#w).set d t) k = if k = d then val t else 0 := by
  rw [at_set (by simp), at_replicate h0]

theorem pol_of_at {R : Type} [CommRing R] {l : List (BitVec w)} {P : R[X]}
    (h : ∀ k, ((at' val l k : Int) : R) = P.coeff k) : pol R val l = P := by
  ext k; rw [coeff_pol, h]

/-- Invariant of the loop of `poly_div` after `i` steps. -/
def DivInv (val : BitVec w → Int) (m len : Nat) (x y : (ZMod m)[X]) (i : Nat)
    (s : List (BitVec w) × List (BitVec w)) : Prop :=
  s.1.length = len ∧ len ≤ s.2.length ∧
  (∀ k, 0 ≤ at' val s.1 k ∧ at' val s.1 k < m) ∧ (∀ k, 0 ≤ at' val s.2 k ∧ at' val s.2 k < m) ∧
  x = pol (ZMod m) val s.1 * y + pol (ZMod m) val s.2 ∧
  ∀ k, len ≤ k + i → at' val s.2 k = 0

theorem square_bounds {m : Nat} (h1 : 1 < m) (h2 : (m : Int) * m ≤ B) : 2 * (m : Int) ≤ B := by
  have h1' : (2 : Int) ≤ m := by omega
  have : (2 : Int) * m ≤ m * m := Int.mul_le_mul_of_nonneg_right h1' (by omega)
  omega

theorem divStep_ok (L : Lawful N val lo B) {n : BitVec w} {m : Nat} (hm : 1 < m) (hn : val n = m)
    (hmm : (m : Int) * m ≤ B) {y : List (BitVec w)} {len d i : Nat} {c : BitVec w} {x : (ZMod m)[X]}
    (h3 : ∀ z : Int, 0 ≤ z → z < m → z * val c % m = 1 → ∀ b ∈ y, (m - 1) * z * val b < B)
    (hlen : y.length = len) (hd : d < len)
    (hy : ∀ k, 0 ≤ at' val y k ∧ at' val y k < m) (hc0 : 0 < val c) (hcd : val c = at' val y d)
    (htop : ∀ k, d < k → at' val y k = 0) (hcop : Int.gcd (val c) m = 1) (hi : i < len - d)
    {s : List (BitVec w) × List (BitVec w)} (h : DivInv val m len x (pol (ZMod m) val y) i s) :
    ∃ s', divStep N n c y (len - d) len i s = .ok s' ∧ DivInv val m len x (pol (ZMod m) val y) (i + 1) s' := by
  obtain ⟨hql, hrl, hq, hr, hx, hz⟩ := h
  have h2m := square_bounds hm hmm
  have hlo := L.lo_le
  have hn0 : n ≠ 0#w := by intro h; subst h; rw [L.zero] at hn; omega
  have hi' : len - 1 - i < s.2.length := by omega
  obtain ⟨ci, hci, hci0, hci1, hciv⟩ := L.inv c n hc0 (by omega) (by rw [hn]; exact hmm) (by rw [hn]; exact hcop)
  have hrr := hr (len - 1 - i)
  rw [at_lt hi'] at hrr
  generalize hrdef : s.2[len - 1 - i] = r at *
  have hprod0 : 0 ≤ val r * val ci := Int.mul_nonneg hrr.1 hci0
  have hprod1 : val r * val ci ≤ (m - 1) * (m - 1) :=
    Int.mul_le_mul (by omega) (by omega) hci0 (by omega)
  have hprod2 : ((m : Int) - 1) * (m - 1) < m * m := by
    have : ((m : Int) - 1) * (m - 1) = m * m - 2 * m + 1 := by ring
    omega
  obtain ⟨t, ht, htv⟩ := L.mul r ci (by omega) (by omega)
  have hdig : divDigit N n c r = .ok t := by
    unfold divDigit; rw [if_neg hn0, hci, bind_ok, ht]
  have hreq : ¬ (t = 0#w ∧ r ≠ 0#w) := by
    rintro ⟨h1, h2⟩
    rw [h1, L.zero] at htv
    rcases Int.mul_eq_zero.1 htv.symm with h | h
    · exact h2 (L.inj _ _ (by rw [h, L.zero]))
    · rw [h, Int.zero_mul, Int.zero_emod] at hciv; omega
  have ht0 : 0 ≤ val t ∧ val t + m ≤ m * m := by
    rw [htv]
    have : ((m : Int) - 1) * (m - 1) = m * m - 2 * m + 1 := by ring
    omega
  -- the product
  have hfit : ∀ a ∈ (List.replicate (len - d - i - 1 + 1) 0#w).set (len - d - i - 1) t, ∀ b ∈ y,
      lo ≤ val a * val b ∧ val a * val b < B := by
    intro a ha b hb
    have hb' := reduced_of_at hy b hb
    rcases List.mem_or_eq_of_mem_set ha with h | h
    · rw [List.eq_of_mem_replicate h, L.zero, Int.zero_mul]; omega
    · have p0 := Int.mul_nonneg ht0.1 hb'.1
      have p1 := h3 (val ci) hci0 (by omega) (by rw [← hn, hciv]) b hb
      have p2 : val r * val ci ≤ (m - 1) * val ci := Int.mul_le_mul_of_nonneg_right (by omega) hci0
      have p3 : val r * val ci * val b ≤ (m - 1) * val ci * val b := Int.mul_le_mul_of_nonneg_right p2 hb'.1
      rw [h]; rw [htv] at p0 ⊢
      omega
  obtain ⟨sy, hsy, hsyl, hsyr, hsyp⟩ := polyMul_ok L (n := n) (m := m) (by omega) hn (by omega) _ y hfit
  -- quotient
  obtain ⟨q', hq', hq'l, hq'a⟩ := polyAdd_ok L (x := s.1)
    (y := (List.replicate (len - d - i - 1 + 1) 0#w).set (len - d - i - 1) t) (n := n) (by omega) (fun k _ => by
      have := hq k
      rw [at_monomial L.zero]
      split <;> omega)
  obtain ⟨r', hr', hr'l, hr'a⟩ := polySub_ok L (x := s.2) (y := sy) (n := n) (by omega) (fun k _ => by
      have := hr k
      have := hsyr k
      omega)
  refine ⟨(q', r'), ?_, ?_, ?_, ?_, ?_, ?_, ?_⟩
  · unfold divStep
    rw [idx_ok hi', bind_ok, hrdef, hdig, bind_ok, require_true hreq, bind_ok, monomial_ok, bind_ok, hsy, bind_ok,
      hq', bind_ok, hr', bind_ok]
  · simp only [hq'l, List.length_set, List.length_replicate, hql]; omega
  · simp only [hr'l]; omega
  · intro k
    have h1 := Int.emod_nonneg (at' val s.1 k + at' val ((List.replicate (len - d - i - 1 + 1) 0#w).set (len - d - i - 1) t) k) (show val n ≠ 0 by omega)
    have h2 := Int.emod_lt_of_pos (at' val s.1 k + at' val ((List.replicate (len - d - i - 1 + 1) 0#w).set (len - d - i - 1) t) k) (show 0 < val n by omega)
    simp only [hq'a]; omega
  · intro k
    have h1 := Int.emod_nonneg (at' val s.2 k - at' val sy k) (show val n ≠ 0 by omega)
    have h2 := Int.emod_lt_of_pos (at' val s.2 k - at' val sy k) (show 0 < val n by omega)
    simp only [hr'a]; omega
  · have e1 : pol (ZMod m) val q' = pol (ZMod m) val s.1
        + pol (ZMod m) val ((List.replicate (len - d - i - 1 + 1) 0#w).set (len - d - i - 1) t) := by
      apply pol_of_at; intro k
      rw [hq'a, hn, ZMod.intCast_mod, Int.cast_add, Polynomial.coeff_add, coeff_pol, coeff_pol]
    have e2 : pol (ZMod m) val r' = pol (ZMod m) val s.2 - pol (ZMod m) val sy := by
      apply pol_of_at; intro k
      rw [hr'a, hn, ZMod.intCast_mod, Int.cast_sub, Polynomial.coeff_sub, coeff_pol, coeff_pol]
    simp only [e1, e2]
    rw [hx, hsyp]; ring
  · intro k hk
    have hcoeff : ((at' val sy k : Int) : ZMod m) = (((if len - d - i - 1 ≤ k then val t * at' val y (k - (len - d - i - 1)) else 0) : Int) : ZMod m) := by
      rw [← coeff_pol, hsyp, pol_monomial L.zero, mul_assoc, Polynomial.coeff_C_mul, mul_comm (X ^ _),
        Polynomial.coeff_mul_X_pow']
      split
      · rw [coeff_pol]; push_cast; rfl
      · simp
    rw [ZMod.intCast_eq_intCast_iff] at hcoeff
    simp only [hr'a, hn]
    by_cases hk' : len ≤ k + i
    · rw [hz k hk']
      rw [if_pos (by omega), htop _ (by omega), Int.mul_zero] at hcoeff
      have h4 := hsyr k
      unfold Int.ModEq at hcoeff
      rw [Int.emod_eq_of_lt h4.1 h4.2, Int.zero_emod] at hcoeff
      rw [hcoeff]; simp
    · have hke : k = len - 1 - i := by omega
      rw [if_pos (by omega), show k - (len - d - i - 1) = d by omega, ← hcd, htv] at hcoeff
      rw [hke, at_lt hi', hrdef, ← hke]
      apply Int.emod_eq_zero_of_dvd
      have h5 : (val ci * val c) ≡ 1 [ZMOD m] := by
        unfold Int.ModEq; rw [← hn, hciv, Int.emod_eq_of_lt (by omega) (by omega)]
      have h6 : at' val sy k ≡ val r [ZMOD m] := by
        have := h5.mul_left (val r)
        rw [mul_one, ← mul_assoc] at this
        exact hcoeff.trans this
      exact h6.dvd

theorem polyDiv_ok (L : Lawful N val lo B) {n : BitVec w} {m : Nat} (hm : 1 < m) (hn : val n = m)
    (hmm : (m : Int) * m ≤ B) {x y : List (BitVec w)}
    (hx : ∀ k, 0 ≤ at' val x k ∧ at' val x k < m) (hy : ∀ k, 0 ≤ at' val y k ∧ at' val y k < m)
    {d : Nat} (hd0 : at' val y d ≠ 0) (htop : ∀ k, d < k → at' val y k = 0)
    (hcop : Int.gcd (at' val y d) m = 1)
    (h3 : ∀ z : Int, 0 ≤ z → z < m → z * at' val y d % m = 1 → ∀ b ∈ y, (m - 1) * z * val b < B) :
    ∃ q r, polyDiv N x y n = .ok (q, r) ∧ q.length = max x.length y.length ∧ r.length = d ∧
      (∀ k, 0 ≤ at' val q k ∧ at' val q k < m) ∧ (∀ k, 0 ≤ at' val r k ∧ at' val r k < m) ∧
      pol (ZMod m) val x = pol (ZMod m) val q * pol (ZMod m) val y + pol (ZMod m) val r := by
  have hlx : (normalize x y).1.length = max x.length y.length := by
    simp only [normalize, length_pad]; omega
  have hly : (normalize x y).2.length = max x.length y.length := by
    simp only [normalize, length_pad]; omega
  have hax : ∀ k, at' val (normalize x y).1 k = at' val x k := fun k => by simp only [normalize, at_pad L.zero]
  have hay : ∀ k, at' val (normalize x y).2 k = at' val y k := fun k => by simp only [normalize, at_pad L.zero]
  have hpx : pol (ZMod m) val (normalize x y).1 = pol (ZMod m) val x := by
    apply pol_of_at; intro k; rw [hax, coeff_pol]
  have hpy : pol (ZMod m) val (normalize x y).2 = pol (ZMod m) val y := by
    apply pol_of_at; intro k; rw [hay, coeff_pol]
  have hd : d < max x.length y.length := by
    by_contra hcon
    exact hd0 (at_ge (by omega))
  rcases lead_spec L.zero (val := val) (normalize x y).2 with ⟨_, h⟩ | ⟨hl1, hl2, hl3, hl4⟩
  · exact absurd (by rw [← hay, h]) hd0
  have hle : (leadingCoefficient (normalize x y).2).1 = d := by
    rcases Nat.lt_trichotomy (leadingCoefficient (normalize x y).2).1 d with h | h | h
    · exact absurd (by rw [← hay, hl4 d h]) hd0
    · exact h
    · have h5 := htop _ h
      rw [← hay, ← hl3] at h5
      exact absurd (L.inj _ _ (by rw [h5, L.zero])) hl2
  obtain ⟨s, hs, hI⟩ := loop_inv (DivInv val m (max x.length y.length) (pol (ZMod m) val x) (pol (ZMod m) val (normalize x y).2))
    (n := max x.length y.length - d)
    (body := fun i s => divStep N n (leadingCoefficient (normalize x y).2).2 (normalize x y).2
      (max x.length y.length - d) (max x.length y.length) i s)
    (s := (List.replicate (max x.length y.length) 0#w, (normalize x y).1)) (by
      refine ⟨by simp, by simp only [hlx]; omega, fun k => by simp only [at_replicate L.zero]; omega, fun k => by simp only [hax]; exact hx k, ?_, ?_⟩
      · have : pol (ZMod m) val (List.replicate (max x.length y.length) 0#w) = 0 := by
          ext k; rw [coeff_pol, at_replicate L.zero]; simp
        simp only [this, hpx]; ring
      · intro k hk; simp only [hax]
        by_cases h : k < x.length
        · omega
        · exact at_ge (by omega))
    (fun i hi s hI => divStep_ok L hm hn hmm (fun z hz0 hz1 hz2 b hb => by
        have hB : (0 : Int) < B := by have := Int.mul_pos (show (0 : Int) < m by omega) (show (0 : Int) < m by omega); omega
        rw [hl3, hle, hay] at hz2
        simp only [normalize, pad, List.mem_append] at hb
        rcases hb with hb | hb
        · exact h3 z hz0 hz1 hz2 b hb
        · rw [List.eq_of_mem_replicate hb, L.zero, Int.mul_zero]; exact hB) hly hd (fun k => by rw [hay]; exact hy k)
      (by rw [hl3, hle, hay]; have := hy d; omega) (by rw [hl3, hle]) (fun k hk => by rw [hay]; exact htop k hk)
      (by rw [hl3, hle, hay]; exact hcop) hi hI)
  obtain ⟨hI1, hI2, hI3, hI4, hI5, hI6⟩ := hI
  refine ⟨s.1, makeFixedLength s.2 d, ?_, hI1, length_makeFixedLength _ _, hI3, ?_, ?_⟩
  · simp only [polyDiv]
    rw [hle, hlx, hs, bind_ok]
  · intro k; rw [at_makeFixedLength L.zero]; split
    · exact hI4 k
    · omega
  · have : pol (ZMod m) val (makeFixedLength s.2 d) = pol (ZMod m) val s.2 := by
      apply pol_of_at; intro k
      rw [coeff_pol, at_makeFixedLength L.zero]
      split
      · rfl
      · rw [hI6 k (by omega)]
    rw [this, ← hpy]; exact hI5

/-! ## The other multiplications -/

theorem pol_take_succ {R : Type} [CommRing R] (h0 : val 0#w = 0) (l : List (BitVec w)) {i : Nat} (hi : i < l.length) :
    pol R val (l.take (i + 1)) = pol R val (l.take i) + C ((val l[i] : Int) : R) * X ^ i := by
  ext k
  rw [Polynomial.coeff_add, coeff_pol, coeff_pol, Polynomial.coeff_C_mul, Polynomial.coeff_X_pow]
  by_cases h1 : k < i
  · rw [at_lt (by simp; omega), at_lt (by simp; omega), if_neg (by omega)]; simp
  · by_cases h2 : k = i
    · subst h2
      rw [at_lt (by simp; omega), at_ge (by simp), if_pos rfl]; simp
    · rw [at_ge (by simp; omega), at_ge (by simp; omega), if_neg h2]; simp

theorem pol_nil {R : Type} [CommRing R] : pol R val [] = 0 := rfl

theorem polyMulOpScanning_ok (L : Lawful N val lo B) {n : BitVec w} {m : Nat} (hm : 0 < m) (hn : val n = m)
    (h2 : 2 * val n ≤ B + 1) (x y : List (BitVec w))
    (hfit : ∀ a ∈ x, ∀ b ∈ y, lo ≤ val a * val b ∧ val a * val b < B) :
    ∃ out, polyMulOpScanning N x y n = .ok out ∧
      Acc val m (x.length + y.length) (pol (ZMod m) val x * pol (ZMod m) val y) out := by
  unfold polyMulOpScanning
  obtain ⟨out, h1, h3⟩ := loop_inv
    (fun i out => Acc val m (x.length + y.length) (pol (ZMod m) val (x.take i) * pol (ZMod m) val y) out)
    (n := x.length) (body := fun i out => loop y.length (fun j out => do
      let o ← idx out (i + j)
      let xi ← idx x i
      let yj ← idx y j
      let p ← N.mulMod xi yj n
      let s ← N.addMod o p n
      setIdx out (i + j) s) out) (s := List.replicate (x.length + y.length) 0#w)
    (by simpa [pol_nil] using acc_replicate L hm (x.length + y.length))
    (fun i hi t ht => by
      obtain ⟨out, h1, h3⟩ := loop_inv
        (fun j out => Acc val m (x.length + y.length) (pol (ZMod m) val (x.take i) * pol (ZMod m) val y
          + C ((val x[i] : Int) : ZMod m) * X ^ i * pol (ZMod m) val (y.take j)) out)
        (n := y.length) (body := fun j out => do
          let o ← idx out (i + j)
          let xi ← idx x i
          let yj ← idx y j
          let p ← N.mulMod xi yj n
          let s ← N.addMod o p n
          setIdx out (i + j) s) (s := t) (by simpa [pol_nil] using ht)
        (fun j hj t ht => by
          obtain ⟨o, h4, h5⟩ := mulStep_ok L hm hn h2 (len := x.length + y.length) (a := (i, x[i])) (b := (j, y[j]))
            (by simp only; omega) (hfit _ (List.getElem_mem hi) _ (List.getElem_mem hj)) _ t ht
          refine ⟨o, ?_, ?_⟩
          · have hl := ht.1
            rw [idx_ok (show i + j < t.length by omega), bind_ok, idx_ok hi, bind_ok, idx_ok hj, bind_ok]
            unfold mulStep at h4
            simp only at h4
            rw [idx_ok (show i + j < t.length by omega), bind_ok] at h4
            exact h4
          · rw [pol_take_succ L.zero y hj]
            convert h5 using 1
            simp only [spOf]; ring)
      refine ⟨out, h1, ?_⟩
      rw [List.take_length] at h3
      rw [pol_take_succ L.zero x hi]
      convert h3 using 1
      ring)
  rw [List.take_length] at h3
  exact ⟨out, h1, h3⟩

theorem polyMulPlain_ok (L : Lawful N val lo B) (x y : List (BitVec w)) (p q : Int) (hp : 0 ≤ p) (hq : 0 ≤ q)
    (hfit : ∀ a ∈ x, ∀ b ∈ y, -q ≤ val a * val b ∧ val a * val b ≤ p)
    (hlo : lo ≤ -(x.length * q)) (hB : x.length * p < B) :
    ∃ out, polyMulPlain N x y = .ok out ∧ out.length = x.length + y.length ∧
      pol ℤ val out = pol ℤ val x * pol ℤ val y := by
  unfold polyMulPlain
  obtain ⟨out, h1, h3⟩ := loop_inv
    (fun i out => out.length = x.length + y.length ∧ (∀ k, -(i * q) ≤ at' val out k ∧ at' val out k ≤ i * p) ∧
      pol ℤ val out = pol ℤ val (x.take i) * pol ℤ val y)
    (n := x.length) (body := fun i out => loop y.length (fun j out => do
      let o ← idx out (i + j)
      let xi ← idx x i
      let yj ← idx y j
      let p ← N.mul xi yj
      let s ← N.add o p
      setIdx out (i + j) s) out) (s := List.replicate (x.length + y.length) 0#w)
    (by
      refine ⟨by simp, fun k => by rw [at_replicate L.zero]; simp, ?_⟩
      rw [List.take_zero, pol_nil, zero_mul]
      ext k; rw [coeff_pol, at_replicate L.zero]; simp)
    (fun i hi t ht => by
      obtain ⟨out, h1, h3⟩ := loop_inv
        (fun j out => out.length = x.length + y.length ∧
          (∀ k, -(i * q) - (if i ≤ k ∧ k < i + j then q else 0) ≤ at' val out k ∧
            at' val out k ≤ i * p + (if i ≤ k ∧ k < i + j then p else 0)) ∧
          pol ℤ val out = pol ℤ val (x.take i) * pol ℤ val y + C (val x[i]) * X ^ i * pol ℤ val (y.take j))
        (n := y.length) (body := fun j out => do
          let o ← idx out (i + j)
          let xi ← idx x i
          let yj ← idx y j
          let p ← N.mul xi yj
          let s ← N.add o p
          setIdx out (i + j) s) (s := t)
        (by
          refine ⟨ht.1, fun k => ?_, by rw [ht.2.2]; simp [pol_nil]⟩
          have := ht.2.1 k
          rw [if_neg (by omega), if_neg (by omega)]; omega)
        (fun j hj t ht => by
          have hl := ht.1
          have hij : i + j < t.length := by omega
          have hf := hfit _ (List.getElem_mem hi) _ (List.getElem_mem hj)
          have ei : ((i : Int) + 1) * p ≤ x.length * p := Int.mul_le_mul_of_nonneg_right (by omega) hp
          have eq : ((i : Int) + 1) * q ≤ x.length * q := Int.mul_le_mul_of_nonneg_right (by omega) hq
          have ei' : ((i : Int) + 1) * p = i * p + p := by ring
          have eq' : ((i : Int) + 1) * q = i * q + q := by ring
          have ip : 0 ≤ (i : Int) * p := Int.mul_nonneg (by omega) hp
          have iq : 0 ≤ (i : Int) * q := Int.mul_nonneg (by omega) hq
          obtain ⟨c, hc, hcv⟩ := L.mul x[i] y[j] (by omega) (by omega)
          have ho := ht.2.1 (i + j)
          rw [at_lt hij, if_neg (by omega), if_neg (by omega)] at ho
          obtain ⟨s, hs, hsv⟩ := L.add t[i + j] c (by omega) (by omega)
          refine ⟨t.set (i + j) s, ?_, by simpa using hl, ?_, ?_⟩
          · rw [idx_ok hij, bind_ok, idx_ok hi, bind_ok, idx_ok hj, bind_ok, hc, bind_ok, hs, bind_ok, setIdx_ok hij]
          · intro k
            rw [at_set hij]
            by_cases hk : k = i + j
            · rw [if_pos hk, if_pos (by omega), if_pos (by omega)]; omega
            · rw [if_neg hk]
              have := ht.2.1 k
              by_cases h6 : i ≤ k ∧ k < i + j
              · rw [if_pos h6, if_pos h6] at this; rw [if_pos (by omega), if_pos (by omega)]; exact this
              · rw [if_neg h6, if_neg h6] at this; rw [if_neg (by omega), if_neg (by omega)]; exact this
          · rw [pol_set (d := val x[i] * val y[j]) hij (by rw [at_lt hij, hsv, hcv]; simp), ht.2.2,
              pol_take_succ L.zero y hj, Polynomial.C_mul]
            simp only [Int.cast_id]; ring)
      refine ⟨out, h1, h3.1, fun k => ?_, ?_⟩
      · have h7 := h3.2.1 k
        have ei' : ((i : Int) + 1) * p = i * p + p := by ring
        have eq' : ((i : Int) + 1) * q = i * q + q := by ring
        push_cast
        rw [ei', eq']
        split at h7 <;> omega
      · rw [h3.2.2, List.take_length, pol_take_succ L.zero x hi]; simp only [Int.cast_id]; ring)
  rw [List.take_length] at h3
  exact ⟨out, h1, h3.1, h3.2.2⟩

/-! ## Panics -/

theorem forEach_panic {α σ : Type} {f : α → σ → M σ} {a : α} {as : List α} {s : σ} (h : f a s = panic) :
    forEach (a :: as) f s = panic := by
  simp [forEach, h]

theorem nonzeros_cons {l : List (BitVec w)} (i : Nat) (h : ∃ c ∈ l, c ≠ 0#w) :
    ∃ p ps, nonzeros i l = p :: ps := by
  induction l generalizing i with
  | nil => simp at h
  | cons a l ih =>
    rw [nonzeros]
    by_cases ha : a = 0#w
    · rw [if_neg (by simpa using ha)]
      apply ih
      obtain ⟨c, hc, hc0⟩ := h
      rcases List.mem_cons.1 hc with h | h
      · exact absurd (h.trans ha) hc0
      · exact ⟨c, h, hc0⟩
    · rw [if_pos ha]; exact ⟨_, _, rfl⟩

theorem nonzeros_nil {l : List (BitVec w)} (i : Nat) (h : ∀ c ∈ l, c = 0#w) : nonzeros i l = [] := by
  induction l generalizing i with
  | nil => rfl
  | cons a l ih =>
    rw [nonzeros, if_neg (by simpa using h a (by simp))]
    exact ih _ (fun c hc => h c (by simp [hc]))

theorem polyMul_zero_modulus (L : Lawful N val lo B) {x y : List (BitVec w)} (hx : ∃ c ∈ x, c ≠ 0#w)
    (hy : ∃ c ∈ y, c ≠ 0#w) : polyMul N x y 0#w = panic := by
  obtain ⟨p, ps, hp⟩ := nonzeros_cons 0 hx
  obtain ⟨q, qs, hq⟩ := nonzeros_cons 0 hy
  unfold polyMul
  rw [hp, hq]
  apply forEach_panic
  apply forEach_panic
  have h1 : p.1 < x.length ∧ q.1 < y.length := by
    have h1 := mem_nonzeros (l := x) (i := 0) (p := p) (by rw [hp]; simp)
    have h2 := mem_nonzeros (l := y) (i := 0) (p := q) (by rw [hq]; simp)
    omega
  unfold mulStep
  rw [idx_ok (by simp; omega), bind_ok, L.mulModZero, bind_panic]

theorem polyMul_left_zero {x y : List (BitVec w)} {n : BitVec w} (hx : ∀ c ∈ x, c = 0#w) :
    polyMul N x y n = .ok (List.replicate (x.length + y.length) 0#w) := by
  unfold polyMul; rw [nonzeros_nil 0 hx]; rfl

/-- A step on a vanishing coefficient changes nothing. -/
theorem divStep_zero (L : Lawful N val lo B) {n c : BitVec w} {y : List (BitVec w)} {len dist i : Nat}
    {q r : List (BitVec w)} (hdig : divDigit N n c 0#w = .ok 0#w) (hi : len - 1 - i < r.length)
    (hr0 : at' val r (len - 1 - i) = 0) (hq : ∀ k, at' val q k = 0)
    (hn : n = 0#w ∨ (0 < val n ∧ ∀ k, 0 ≤ at' val r k ∧ at' val r k < val n)) :
    ∃ q' r', divStep N n c y dist len i (q, r) = .ok (q', r') ∧ (∀ k, at' val q' k = 0) ∧
      (∀ k, at' val r' k = at' val r k) ∧ r.length ≤ r'.length := by
  have hlo := L.lo_le
  have hB := L.B_pos
  have h0 : r[len - 1 - i] = 0#w := L.inj _ _ (by rw [← at_lt (val := val) hi, hr0, L.zero])
  have hm : ∀ c ∈ (List.replicate (dist - i - 1 + 1) 0#w).set (dist - i - 1) 0#w, c = 0#w := by
    intro c hc
    rcases List.mem_or_eq_of_mem_set hc with h | h
    · exact List.eq_of_mem_replicate h
    · exact h
  have hma : ∀ k, at' val ((List.replicate (dist - i - 1 + 1) 0#w).set (dist - i - 1) 0#w) k = 0 := by
    intro k; rw [at_monomial L.zero]; split
    · exact L.zero
    · rfl
  have hstart : ∀ z : M (List (BitVec w) × List (BitVec w)),
      (do
        let quo ← polyAdd N q ((List.replicate (dist - i - 1 + 1) 0#w).set (dist - i - 1) 0#w) n
        let rem ← polySub N r (List.replicate (((List.replicate (dist - i - 1 + 1) 0#w).set (dist - i - 1) 0#w).length + y.length) 0#w) n
        Except.ok (quo, rem)) = z → divStep N n c y dist len i (q, r) = z := by
    intro z hz
    unfold divStep
    simp only
    rw [idx_ok hi, bind_ok, h0, hdig, bind_ok, require_true (by simp), bind_ok, monomial_ok, bind_ok,
      polyMul_left_zero hm, bind_ok]
    exact hz
  rcases hn with hn | ⟨hn, hred⟩
  · subst hn
    obtain ⟨q', hq', _, hqa⟩ := polyAdd_int_ok L (x := q)
      (y := (List.replicate (dist - i - 1 + 1) 0#w).set (dist - i - 1) 0#w) (fun k _ => by rw [hq, hma]; omega)
    obtain ⟨r', hr', hrl, hra⟩ := polySub_int_ok L (x := r)
      (y := List.replicate (((List.replicate (dist - i - 1 + 1) 0#w).set (dist - i - 1) 0#w).length + y.length) 0#w)
      (fun k _ => by
        rw [at_replicate L.zero, Int.sub_zero]
        exact at_cases (P := fun z => lo ≤ z ∧ z < B) (by omega) (fun c _ => L.range c) k)
    refine ⟨q', r', hstart _ (by rw [hq', bind_ok, hr', bind_ok]), fun k => ?_, fun k => ?_, by omega⟩
    · rw [hqa, hq, hma]; rfl
    · rw [hra, at_replicate L.zero, Int.sub_zero]
  · obtain ⟨q', hq', _, hqa⟩ := polyAdd_ok L (x := q)
      (y := (List.replicate (dist - i - 1 + 1) 0#w).set (dist - i - 1) 0#w) hn (fun k _ => by rw [hq, hma]; omega)
    obtain ⟨r', hr', hrl, hra⟩ := polySub_ok L (x := r)
      (y := List.replicate (((List.replicate (dist - i - 1 + 1) 0#w).set (dist - i - 1) 0#w).length + y.length) 0#w) hn
      (fun k _ => by
        have := hred k
        have := L.range n
        rw [at_replicate L.zero]; omega)
    refine ⟨q', r', hstart _ (by rw [hq', bind_ok, hr', bind_ok]), fun k => ?_, fun k => ?_, by omega⟩
    · rw [hqa, hq, hma]; simp
    · rw [hra, at_replicate L.zero, Int.sub_zero, Int.emod_eq_of_lt (hred k).1 (hred k).2]

/-- If every digit of a vanishing coefficient vanishes and the step for the top coefficient of `x` panics,
division panics. -/
theorem polyDiv_panic (L : Lawful N val lo B) {n : BitVec w} {x y : List (BitVec w)} {d e : Nat}
    (hd : (leadingCoefficient (normalize x y).2).1 = d) (hde : d ≤ e)
    (hxe : at' val x e ≠ 0) (hxt : ∀ k, e < k → at' val x k = 0)
    (hdig : divDigit N n (leadingCoefficient (normalize x y).2).2 0#w = .ok 0#w)
    (hn : n = 0#w ∨ (0 < val n ∧ ∀ k, 0 ≤ at' val x k ∧ at' val x k < val n))
    (hstep : ∀ q r i dist len, len - 1 - i < r.length → at' val r (len - 1 - i) = at' val x e →
      (∀ k, at' val q k = 0) →
      divStep N n (leadingCoefficient (normalize x y).2).2 (normalize x y).2 dist len i (q, r) = panic) :
    polyDiv N x y n = panic := by
  have hlx : (normalize x y).1.length = max x.length y.length := by
    simp only [normalize, length_pad]; omega
  have hax : ∀ k, at' val (normalize x y).1 k = at' val x k := fun k => by simp only [normalize, at_pad L.zero]
  have he : e < max x.length y.length := by
    by_contra hcon
    exact hxe (at_ge (by omega))
  simp only [polyDiv]
  rw [hd, hlx]
  obtain ⟨s, hs, hq, hr, hl⟩ := loop_inv (fun i (s : List (BitVec w) × List (BitVec w)) =>
      (∀ k, at' val s.1 k = 0) ∧ (∀ k, at' val s.2 k = at' val x k) ∧ max x.length y.length ≤ s.2.length)
    (n := max x.length y.length - 1 - e)
    (body := fun i s => divStep N n (leadingCoefficient (normalize x y).2).2 (normalize x y).2
      (max x.length y.length - d) (max x.length y.length) i s)
    (s := (List.replicate (max x.length y.length) 0#w, (normalize x y).1))
    ⟨fun k => at_replicate L.zero _ _, hax, by simp only [hlx]; omega⟩
    (fun i hi s hI => by
      obtain ⟨q', r', h1, h2, h3, h4⟩ := divStep_zero L (n := n) (y := (normalize x y).2)
        (dist := max x.length y.length - d) (len := max x.length y.length) (i := i) (q := s.1) (r := s.2) hdig
        (by omega) (by rw [hI.2.1]; exact hxt _ (by omega)) hI.1 (by
          rcases hn with h | ⟨h, h'⟩
          · exact Or.inl h
          · exact Or.inr ⟨h, fun k => by rw [hI.2.1]; exact h' k⟩)
      exact ⟨(q', r'), h1, h2, fun k => (h3 k).trans (hI.2.1 k), by simp only; omega⟩)
  rw [loop_panic (k := max x.length y.length - 1 - e) (by omega) hs, bind_panic]
  exact hstep s.1 s.2 _ _ _ (by omega) (by
    rw [show max x.length y.length - 1 - (max x.length y.length - 1 - e) = e by omega, hr]) hq

end Hacspec.Poly
