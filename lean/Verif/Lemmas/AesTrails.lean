import Mathlib.Algebra.BigOperators.Field
import Mathlib.Algebra.BigOperators.Fin
import Mathlib.Data.Fintype.BigOperators
import Verif.Lemmas.AesDiffusion
import Verif.Lemmas.Ideal.ChaCha
import Verif.Lemmas.Ideal.Shares
import Verif.Spec.Trails

/-! # Trails of differences through AES -/

namespace Hacspec.Aes

open Hacspec.Spec Hacspec.Spec.Aes Hacspec.Ideal Finset

/-! ## Shares of products -/

theorem share_at_most {Ω : Type} [Fintype Ω] (P : Ω → Prop) : share P ≤ 1 := by
  classical
  rw [share]
  exact div_le_one_of_le₀ (Nat.cast_le.mpr (Finset.card_le_univ _)) (Nat.cast_nonneg _)

/-- Independent events. -/
theorem share_forall {N : Nat} {B : Type} [Fintype B] (P : Fin N → B → Prop) :
    share (fun f : Fin N → B => ∀ i, P i (f i)) = ∏ i, share (P i) := by
  classical
  have h : (univ.filter fun f : Fin N → B => ∀ i, P i (f i)) = Fintype.piFinset fun i => univ.filter (P i) := by
    ext f
    simp [Fintype.mem_piFinset]
  unfold share
  rw [Finset.prod_div_distrib, Finset.prod_const, Finset.card_univ, Fintype.card_fin, Fintype.card_fun, Fintype.card_fin, Nat.cast_pow]
  congr 1
  rw [← Nat.cast_prod, ← Fintype.card_piFinset, ← h]
  congr!

/-- Strings as functions. -/
def bytesEquiv (n : Nat) : Bytes n ≃ (Fin n → U8) where
  toFun s i := s.1[i.1]'(by rw [s.2]; exact i.2)
  invFun f := ⟨List.ofFn f, List.length_ofFn⟩
  left_inv s := Subtype.ext (List.ext_getElem (by rw [List.length_ofFn, s.2]) fun i h1 h2 => by simp)
  right_inv f := by
    funext i
    simp

/-! ## The S-box -/

/-- The factor for one byte. -/
def factor (c : ℚ) (x : U8) : ℚ := if x = 0 then 1 else c

theorem share_sbox (d e : U8) : share (fun x : U8 => sub x ^^^ sub (x ^^^ d) = e) ≤ factor (1 / 64) d := by
  classical
  rw [factor]
  split
  · exact share_at_most _
  · rename_i hd
    have h := sbox_uniform hd e
    have h1 : (univ.filter fun x : U8 => sub x ^^^ sub (x ^^^ d) = e).card ≤ 4 := by
      refine le_trans ?_ h
      rw [Spec.countBytes]
      refine le_trans (Finset.card_le_card (t := (((List.range 256).filter fun i => match subByte (BitVec.ofNat 8 i),
        subByte (BitVec.ofNat 8 i ^^^ d) with
          | .ok a, .ok b => a ^^^ b == e
          | _, _ => true).map (BitVec.ofNat 8)).toFinset) ?_) ?_
      · intro x hx
        rw [Finset.mem_filter] at hx
        rw [List.mem_toFinset, List.mem_map]
        refine ⟨x.toNat, List.mem_filter.mpr ⟨List.mem_range.mpr x.isLt, ?_⟩, by simp⟩
        rw [BitVec.ofNat_toNat, BitVec.setWidth_eq, subByte_ok, subByte_ok]
        exact beq_iff_eq.mpr hx.2
      · exact (List.toFinset_card_le _).trans (le_of_eq (List.length_map ..))
    have hc : Fintype.card U8 = 256 := by decide +kernel
    rw [share, hc, div_le_div_iff₀ (by norm_num) (by norm_num)]
    have : ((univ.filter fun x : U8 => sub x ^^^ sub (x ^^^ d) = e).card : ℚ) ≤ 4 := by exact_mod_cast h1
    refine le_trans (mul_le_mul_of_nonneg_right (le_trans (le_of_eq ?_) this) (by norm_num)) (by norm_num)
    congr!

/-! ## One round -/

/-- ShiftRows and MixColumns. -/
def lin (s : List U8) : List U8 := Spec.Aes.mixColumns (Spec.Aes.shiftRows s)

theorem xor_four (a b c d a' b' c' d' : U8) :
    (a ^^^ a') ^^^ (b ^^^ b') ^^^ (c ^^^ c') ^^^ (d ^^^ d') = (a ^^^ b ^^^ c ^^^ d) ^^^ (a' ^^^ b' ^^^ c' ^^^ d') := by
  have := xor4 a b c d a' b' c' d' 0
  simp only [xor_0] at this
  exact this.symm

theorem lin_xor {s t : List U8} (hs : s.length = 16) (ht : t.length = 16) : lin (Spec.xor s t) = Spec.xor (lin s) (lin t) := by
  obtain ⟨a0, a1, a2, a3, a4, a5, a6, a7, a8, a9, a10, a11, a12, a13, a14, a15, rfl⟩ := exists16 hs
  obtain ⟨b0, b1, b2, b3, b4, b5, b6, b7, b8, b9, b10, b11, b12, b13, b14, b15, rfl⟩ := exists16 ht
  have e : ∀ a0 a1 a2 a3 a4 a5 a6 a7 a8 a9 a10 a11 a12 a13 a14 a15 : U8,
      Spec.Aes.shiftRows [a0, a1, a2, a3, a4, a5, a6, a7, a8, a9, a10, a11, a12, a13, a14, a15] =
      [a0, a5, a10, a15, a4, a9, a14, a3, a8, a13, a2, a7, a12, a1, a6, a11] := by
    intros
    simp [Spec.Aes.shiftRows, List.range_succ]
  simp only [lin, Spec.xor, List.zipWith_cons_cons, List.zipWith_nil_left, e, mixColumns_mixWith]
  rw [show coeffs = [2, 1, 1, 3] from rfl]
  simp only [mixWith_eval, col, gmul1, gmul2_xor, gmul3_xor, List.cons_append, List.nil_append, List.zipWith_cons_cons,
    List.zipWith_nil_left, xor_four]

theorem length_lin (s : List U8) : (lin s).length = 16 := length_mixColumns _

theorem lin_inj {s t : List U8} (hs : s.length = 16) (ht : t.length = 16) (h : lin s = lin t) : s = t := by
  rw [lin, lin] at h
  have h := congrArg Spec.Aes.invMixColumns h
  rw [invMix_mix (length_shiftRows _), invMix_mix (length_shiftRows _)] at h
  have h := congrArg Spec.Aes.invShiftRows h
  rwa [invShift_shift hs, invShift_shift ht] at h

/-- The blocks with a given difference after SubBytes, ShiftRows and MixColumns. -/
def Meets (d e : List U8) (s : Bytes 16) : Prop :=
  Spec.xor (lin (Spec.Aes.subBytes s.1)) (lin (Spec.Aes.subBytes (Spec.xor s.1 d))) = e

theorem weight_prod (l : List U8) (c : ℚ) : ∏ i : Fin l.length, factor c l[i.1] = c ^ weight l := by
  induction l with
  | nil => simp [weight]
  | cons x l ih =>
    refine (Fin.prod_univ_succ (n := l.length) fun i => factor c (x :: l)[i.1]).trans ?_
    have e : factor c x * ∏ i : Fin l.length, factor c l[i.1] = c ^ weight (x :: l) := by
      rw [ih, weight, weight, List.filter_cons, factor]
      by_cases hx : x = 0
      · rw [if_pos hx, one_mul, if_neg (by simp [hx])]
      · rw [if_neg hx, if_pos (bne_iff_ne.mpr hx), List.length_cons, pow_succ']
    exact e

theorem weight_bytes {n : Nat} (d : Bytes n) (c : ℚ) : ∏ i : Fin n, factor c (bytesEquiv n d i) = c ^ weight d.1 := by
  rw [← weight_prod]
  obtain ⟨l, rfl⟩ := d
  rfl

theorem share_meets (d : Bytes 16) (e : List U8) : share (Meets d.1 e) ≤ (1 / 64) ^ weight d.1 := by
  classical
  by_cases hne : ∃ s, Meets d.1 e s
  · obtain ⟨s0, h0⟩ := hne
    have key : ∀ s, Meets d.1 e s → ∀ i : Fin 16, sub (bytesEquiv 16 s i) ^^^ sub (bytesEquiv 16 s i ^^^ bytesEquiv 16 d i) =
        sub (bytesEquiv 16 s0 i) ^^^ sub (bytesEquiv 16 s0 i ^^^ bytesEquiv 16 d i) := by
      intro s hs i
      have h := hs.trans h0.symm
      have ls : ∀ s : Bytes 16, (Spec.Aes.subBytes s.1).length = 16 := fun s => by rw [length_subBytes, s.2]
      have ls' : ∀ s : Bytes 16, (Spec.Aes.subBytes (Spec.xor s.1 d.1)).length = 16 := fun s => by
        rw [length_subBytes, length_xor16 s.2 d.2]
      rw [← lin_xor (ls s) (ls' s), ← lin_xor (ls s0) (ls' s0)] at h
      have h := lin_inj (length_xor16 (ls s) (ls' s)) (length_xor16 (ls s0) (ls' s0)) h
      have hget : ∀ s : Bytes 16, (Spec.xor (Spec.Aes.subBytes s.1) (Spec.Aes.subBytes (Spec.xor s.1 d.1)))[i.1]? =
          some (sub (bytesEquiv 16 s i) ^^^ sub (bytesEquiv 16 s i ^^^ bytesEquiv 16 d i)) := by
        intro s
        have h1 : i.1 < s.1.length := by rw [s.2]; exact i.2
        have h2 : i.1 < d.1.length := by rw [d.2]; exact i.2
        simp [Spec.xor, Spec.Aes.subBytes, bytesEquiv, h1, h2]
      have := (hget s).symm.trans ((congrArg (·[i.1]?) h).trans (hget s0))
      exact Option.some.inj this
    refine (share_mono key).trans ?_
    rw [share_equiv (bytesEquiv 16) fun f : Fin 16 → U8 => ∀ i, sub (f i) ^^^ sub (f i ^^^ bytesEquiv 16 d i) =
      sub (bytesEquiv 16 s0 i) ^^^ sub (bytesEquiv 16 s0 i ^^^ bytesEquiv 16 d i),
      share_forall fun i x => sub x ^^^ sub (x ^^^ bytesEquiv 16 d i) =
        sub (bytesEquiv 16 s0 i) ^^^ sub (bytesEquiv 16 s0 i ^^^ bytesEquiv 16 d i)]
    refine (Finset.prod_le_prod (fun i _ => share_nonneg _) fun i _ => share_sbox _ _).trans (le_of_eq ?_)
    exact weight_bytes d _
  · have : ∀ s, Meets d.1 e s → False := fun s h => hne ⟨s, h⟩
    refine (share_mono this).trans ?_
    have h0 : share (fun _ : Bytes 16 => False) = 0 := by simp [share]
    rw [h0]
    positivity

/-! ## Many rounds -/

/-- A round. -/
def roundB (s k : Bytes 16) : Bytes 16 := ⟨Spec.xor (lin (Spec.Aes.subBytes s.1)) k.1, length_xor16 (length_lin _) k.2⟩

theorem aesEnc_round (s k : Bytes 16) : aesEnc s.1 k.1 = .ok (roundB s k).1 := aesEnc_ok s.2 k.2

/-- The blocks before each round. -/
def states (K : Nat → Bytes 16) (s : Bytes 16) : Nat → Bytes 16
  | 0 => s
  | i + 1 => roundB (states K s i) (K i)

/-- Keys for all rounds. -/
def allKeys {n : Nat} (k : Fin n → Bytes 16) (i : Nat) : Bytes 16 :=
  if h : i < n then k ⟨i, h⟩ else ⟨List.replicate 16 0, List.length_replicate⟩

theorem allKeys_fin {n : Nat} (k : Fin n → Bytes 16) (i : Fin n) : allKeys k i = k i := dif_pos i.2

theorem roundB_key {s k k' : Bytes 16} (h : roundB s k = roundB s k') : k = k' := by
  have h := congrArg (fun b : Bytes 16 => Spec.xor (lin (Spec.Aes.subBytes s.1)) b.1) h
  simp only [roundB] at h
  refine Subtype.ext (List.ext_getElem (by rw [k.2, k'.2]) fun i h1 h2 => ?_)
  have h3 : i < (lin (Spec.Aes.subBytes s.1)).length := by rw [length_lin, ← k.2]; exact h1
  have h := congrArg (·[i]?) h
  simp only [Spec.xor, List.getElem?_zipWith, List.getElem?_eq_getElem h1, List.getElem?_eq_getElem h2, List.getElem?_eq_getElem h3,
    Option.map₂_some_some, Option.some.injEq, ← BitVec.xor_assoc, BitVec.xor_self, BitVec.zero_xor] at h
  exact h

theorem states_bij (n : Nat) :
    Function.Bijective fun ω : (Fin n → Bytes 16) × Bytes 16 => fun i : Fin (n + 1) => states (allKeys ω.1) ω.2 i := by
  classical
  refine (Fintype.bijective_iff_injective_and_card _).mpr ⟨?_, ?_⟩
  · rintro ⟨k, s⟩ ⟨k', s'⟩ h
    have h : ∀ i : Fin (n + 1), states (allKeys k) s i = states (allKeys k') s' i := fun i => congrFun h i
    refine Prod.ext (funext fun i => ?_) (h 0)
    have h1 := h i.castSucc
    have h2 := h i.succ
    simp only [Fin.val_castSucc, Fin.val_succ, states] at h1 h2
    rw [h1, allKeys_fin, allKeys_fin] at h2
    exact roundB_key h2
  · rw [Fintype.card_prod, Fintype.card_fun, Fintype.card_fun, Fintype.card_fin, Fintype.card_fin, pow_succ]

theorem xor_key {a b k : List U8} (ha : a.length = 16) (hb : b.length = 16) (hk : k.length = 16) :
    Spec.xor (Spec.xor a k) (Spec.xor b k) = Spec.xor a b := by
  refine List.ext_getElem (by simp [Spec.xor, ha, hb, hk]) fun i h1 h2 => ?_
  simp only [Spec.xor, List.getElem_zipWith]
  rw [BitVec.xor_assoc, BitVec.xor_comm (b[i]'_), ← BitVec.xor_assoc (k[i]'_), BitVec.xor_self, BitVec.zero_xor]

theorem xor_self_left {a b d : List U8} (ha : a.length = 16) (hb : b.length = 16) (h : Spec.xor a b = d) : b = Spec.xor a d := by
  subst h
  refine List.ext_getElem (by simp [Spec.xor, ha, hb]) fun i h1 h2 => ?_
  simp only [Spec.xor, List.getElem_zipWith]
  rw [← BitVec.xor_assoc, BitVec.xor_self, BitVec.zero_xor]

theorem follows_states {Δ : Nat → Bytes 16} {n : Nat} {k : Fin n → Bytes 16} {s : Bytes 16} {a b : Nat → List U8} (ha : a 0 = s.1)
    (hb : b 0 = Spec.xor s.1 (Δ 0).1) (h : ∀ i : Fin n, aesEnc (a i) (k i).1 = .ok (a (i + 1)) ∧ aesEnc (b i) (k i).1 = .ok (b (i + 1)) ∧
      Spec.xor (a (i + 1)) (b (i + 1)) = (Δ (i + 1)).1) (i : Nat) (hi : i ≤ n) :
    a i = (states (allKeys k) s i).1 ∧ b i = Spec.xor (a i) (Δ i).1 := by
  induction i with
  | zero => exact ⟨ha, by rw [hb, ha]⟩
  | succ i ih =>
    obtain ⟨h1, h2⟩ := ih (by omega)
    obtain ⟨e1, e2, e3⟩ := h ⟨i, hi⟩
    have ea : a (i + 1) = (states (allKeys k) s (i + 1)).1 := by
      simp only at e1
      rw [h1, aesEnc_round, Except.ok.injEq] at e1
      rw [← e1, states, ← allKeys_fin k ⟨i, hi⟩]
    refine ⟨ea, xor_self_left (by rw [ea]; exact (states _ s _).2) ?_ e3⟩
    simp only at e2
    exact length_aesEnc (by rw [h2, h1]; exact length_xor16 (states _ s _).2 (Δ i).2) (k ⟨i, hi⟩).2 e2

theorem follows_meets {Δ : Nat → Bytes 16} {n : Nat} {k : Fin n → Bytes 16} {s : Bytes 16} (h : Follows aesEnc Δ k s) (i : Fin n) :
    Meets (Δ i).1 (Δ (i + 1)).1 (states (allKeys k) s i) := by
  obtain ⟨a, b, ha, hb, h⟩ := h
  obtain ⟨h1, h2⟩ := follows_states ha hb h i i.2.le
  obtain ⟨e1, e2, e3⟩ := h i
  rw [h1, aesEnc_round, Except.ok.injEq] at e1
  rw [h2, h1, aesEnc_ok (length_xor16 (states _ s _).2 (Δ i).2) (k i).2, Except.ok.injEq] at e2
  rw [← e1, ← e2, roundB] at e3
  rw [Meets, ← e3]
  exact (xor_key (length_lin _) (length_lin _) (k i).2).symm

/-- The share of keys and blocks for which the differences are those of a trail. -/
theorem share_follows (Δ : Nat → Bytes 16) (n : Nat) :
    share (fun ω : (Fin n → Bytes 16) × Bytes 16 => Follows aesEnc Δ ω.1 ω.2) ≤ ∏ i : Fin n, (1 / 64 : ℚ) ^ weight (Δ i).1 := by
  let P : Fin (n + 1) → Bytes 16 → Prop := fun i s => i.1 < n → Meets (Δ i).1 (Δ (i + 1)).1 s
  have h := share_mono (P := fun ω : (Fin n → Bytes 16) × Bytes 16 => Follows aesEnc Δ ω.1 ω.2)
    (Q := fun ω => ∀ i : Fin (n + 1), P i (states (allKeys ω.1) ω.2 i)) fun ω hω i hi => follows_meets hω ⟨i, hi⟩
  refine h.trans ?_
  have e := share_equiv (Equiv.ofBijective _ (states_bij n)) fun f : Fin (n + 1) → Bytes 16 => ∀ i, P i (f i)
  refine (le_of_eq e).trans ?_
  rw [share_forall P, Fin.prod_univ_castSucc]
  have hl : share (P (Fin.last n)) ≤ 1 := share_at_most _
  refine le_trans (mul_le_of_le_one_right (Finset.prod_nonneg fun i _ => share_nonneg _) hl) ?_
  refine Finset.prod_le_prod (fun i _ => share_nonneg _) fun i _ => ?_
  refine (share_mono fun s hs => ?_).trans (share_meets (Δ i) (Δ (i + 1)).1)
  exact hs i.2

theorem diffBytes_weight : ∀ s t : List U8, Spec.diffBytes s t = weight (Spec.xor s t)
  | [], _ => rfl
  | _ :: _, [] => rfl
  | x :: s, y :: t => by
    rw [diffBytes_cons, diffBytes_weight s t]
    show _ = weight ((x ^^^ y) :: Spec.xor s t)
    rw [weight, weight, List.filter_cons, nz]
    by_cases h : x ^^^ y = 0
    · rw [if_pos h, if_neg (by simp [h]), Nat.zero_add]
    · rw [if_neg h, if_pos (bne_iff_ne.mpr h), List.length_cons, Nat.add_comm]

end Hacspec.Aes
