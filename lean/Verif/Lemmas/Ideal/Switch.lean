import Mathlib.Data.Fintype.Perm
import Mathlib.Data.Nat.Factorial.Basic
import Mathlib.Tactic.Ring
import Mathlib.Tactic.Linarith
import Mathlib.Logic.Equiv.Fintype
import Verif.Lemmas.Ideal.Gcm

/-! # Random functions and random permutations -/

namespace Hacspec.Ideal

open Spec Finset

section Switch

variable {X : Type} [Fintype X] [DecidableEq X]

/-- Functions with given values at some points. -/
theorem card_extend (S : Finset X) (f : X → X) :
    (univ.filter fun F : X → X => ∀ x ∈ S, F x = f x).card = Fintype.card X ^ (Fintype.card X - S.card) := by
  have : (univ.filter fun F : X → X => ∀ x ∈ S, F x = f x) = Fintype.piFinset fun x => if x ∈ S then {f x} else univ := by
    ext F
    rw [Finset.mem_filter, Fintype.mem_piFinset]
    refine ⟨fun h x => ?_, fun h => ⟨Finset.mem_univ _, fun x hx => ?_⟩⟩
    · by_cases hx : x ∈ S
      · rw [if_pos hx]; exact Finset.mem_singleton.mpr (h.2 x hx)
      · rw [if_neg hx]; exact Finset.mem_univ _
    · have := h x
      rw [if_pos hx] at this
      exact Finset.mem_singleton.mp this
  rw [this, Fintype.card_piFinset, ← Finset.card_compl, ← Finset.prod_mul_prod_compl S,
    Finset.prod_eq_one (s := S) fun x hx => by rw [if_pos hx, Finset.card_singleton], Nat.one_mul,
    Finset.prod_congr (s₂ := Sᶜ) rfl fun x hx => by rw [if_neg (Finset.mem_compl.mp hx), Finset.card_univ], Finset.prod_const]

/-- Permutations with given values at some points. -/
theorem card_extend_perm (S : Finset X) (f : X → X) :
    (univ.filter fun π : Equiv.Perm X => ∀ x ∈ S, π x = f x).card ≤ (Fintype.card X - S.card).factorial := by
  by_cases h : ∃ π : Equiv.Perm X, ∀ x ∈ S, π x = f x
  · obtain ⟨π₀, h0⟩ := h
    have e := Fintype.card_congr (Equiv.Perm.subtypeEquivSubtypePerm fun x => x ∉ S)
    rw [Fintype.card_perm, Fintype.card_subtype_compl, Fintype.card_coe, Fintype.card_subtype] at e
    rw [e]
    refine Finset.card_le_card_of_injOn (fun π => π₀⁻¹ * π) ?_ ?_
    · intro π hπ
      have hπ := (Finset.mem_filter.mp hπ).2
      refine Finset.mem_filter.mpr ⟨Finset.mem_univ _, fun a ha => ?_⟩
      have ha : a ∈ S := by simpa using ha
      rw [Equiv.Perm.mul_apply, hπ a ha, ← h0 a ha]
      exact π₀.symm_apply_apply a
    · intro π _ π' _ hh
      exact mul_left_cancel hh
  · rw [Finset.filter_false_of_mem fun π _ hπ => h ⟨π, hπ⟩]
    exact Nat.zero_le _

theorem pow_fact {N c s : Nat} (hc : c ≤ s) (hs : s ≤ N) : N ^ c * (N - c).factorial ≤ N ^ s * (N - s).factorial := by
  induction s with
  | zero => rw [Nat.le_zero.mp hc]
  | succ s ih =>
    rcases Nat.lt_or_eq_of_le hc with hc | rfl
    · refine (ih (by omega) (by omega)).trans ?_
      rw [Nat.pow_succ, Nat.mul_assoc]
      refine Nat.mul_le_mul_left _ ?_
      rw [show N - s = (N - (s + 1)) + 1 by omega, Nat.factorial_succ]
      exact Nat.mul_le_mul_right _ (by omega)
    · exact le_refl _

/-- Whatever is determined by at most `s` values, which may be chosen one after the other, is for random permutations not much
more likely than for random functions. -/
theorem card_switch (Q : (X → X) → Finset X) (P : (X → X) → Prop) [DecidablePred P]
    (hQ : ∀ F F' : X → X, (∀ x ∈ Q F, F' x = F x) → Q F' = Q F ∧ (P F → P F')) {s : Nat} (hs : ∀ F, (Q F).card ≤ s)
    (hN : s ≤ Fintype.card X) :
    Fintype.card X ^ Fintype.card X * (univ.filter fun π : Equiv.Perm X => P π).card ≤
      Fintype.card X ^ s * (Fintype.card X - s).factorial * (univ.filter P).card := by
  set N := Fintype.card X with hNd
  have hsym : ∀ F F' : X → X, (∀ x ∈ Q F, F' x = F x) ↔ (∀ x ∈ Q F', F x = F' x) := by
    intro F F'
    constructor
    · intro h x hx
      rw [(hQ F F' h).1] at hx
      exact (h x hx).symm
    · intro h x hx
      rw [(hQ F' F h).1] at hx
      exact (h x hx).symm
  have hc : ∀ F, (Q F).card ≤ N := fun F => (hs F).trans hN
  have e1 : N ^ N * (univ.filter fun π : Equiv.Perm X => P π).card =
      ∑ π : Equiv.Perm X, ∑ F : X → X, if P π ∧ ∀ x ∈ Q π, F x = π x then N ^ (Q π).card else 0 := by
    rw [Finset.card_filter, Finset.mul_sum]
    refine Finset.sum_congr rfl fun π _ => ?_
    by_cases hp : P π
    · simp only [hp, true_and, if_true]
      rw [Finset.sum_ite, Finset.sum_const_zero, Nat.add_zero, Finset.sum_const, card_extend, nsmul_eq_mul, Nat.cast_id, ← hNd,
        ← Nat.pow_add, Nat.sub_add_cancel (hc _), Nat.mul_one]
    · simp [hp]
  have e2 : ∑ π : Equiv.Perm X, ∑ F : X → X, (if P π ∧ ∀ x ∈ Q π, F x = π x then N ^ (Q π).card else 0) =
      ∑ F : X → X, ∑ π : Equiv.Perm X, if P F ∧ ∀ x ∈ Q F, π x = F x then N ^ (Q F).card else 0 := by
    rw [Finset.sum_comm]
    refine Finset.sum_congr rfl fun F _ => Finset.sum_congr rfl fun π _ => ?_
    by_cases h : ∀ x ∈ Q π, F x = π x
    · have h' := (hsym π F).mp h
      have a := hQ π F h
      have b := hQ F π h'
      rw [a.1]
      by_cases hp : P π
      · rw [if_pos ⟨hp, h⟩, if_pos ⟨a.2 hp, a.1 ▸ h'⟩]
      · rw [if_neg fun x => hp x.1, if_neg fun x => hp (b.2 x.1)]
    · rw [if_neg fun x => h x.2, if_neg fun x => h ((hsym π F).mpr x.2)]
  rw [e1, e2, Finset.card_filter, Finset.mul_sum]
  refine Finset.sum_le_sum fun F _ => ?_
  by_cases hp : P F
  · simp only [hp, true_and, if_true]
    rw [Finset.sum_ite, Finset.sum_const_zero, Nat.add_zero, Finset.sum_const, nsmul_eq_mul, Nat.cast_id, Nat.mul_one]
    refine (Nat.mul_le_mul_right _ (card_extend_perm (Q F) F)).trans ?_
    rw [Nat.mul_comm]
    exact pow_fact (hs F) hN
  · simp [hp]

/-- The quotient, from below. -/
theorem desc_bound {N s : Nat} (hs : s ≤ N) :
    N ^ s * (2 * N) ≤ 2 * N * N.descFactorial s + s * (s - 1) * N ^ s := by
  induction s with
  | zero => simp
  | succ s ih =>
    have ih := ih (by omega)
    obtain ⟨d, rfl⟩ : ∃ d, N = s + d := ⟨N - s, by omega⟩
    rw [Nat.descFactorial_succ, show s + d - s = d by omega, Nat.pow_succ, Nat.succ_sub_one]
    rcases s with _ | s
    · simp only [Nat.zero_add, Nat.pow_zero, Nat.one_mul, Nat.descFactorial_zero, Nat.mul_one, Nat.mul_zero, Nat.zero_mul, Nat.add_zero]
      exact le_of_eq (by ring)
    · rw [Nat.succ_sub_one] at ih
      generalize (s + 1 + d) ^ (s + 1) = p at ih ⊢
      generalize (s + 1 + d).descFactorial (s + 1) = D at ih ⊢
      nlinarith [Nat.mul_le_mul_right d ih, Nat.zero_le (p * s * (s + 1))]

/-- A random permutation and a random function, counted. -/
theorem card_switch' (Q : (X → X) → Finset X) (P : (X → X) → Prop) [DecidablePred P]
    (hQ : ∀ F F' : X → X, (∀ x ∈ Q F, F' x = F x) → Q F' = Q F ∧ (P F → P F')) {s : Nat} (hs : ∀ F, (Q F).card ≤ s)
    (hN : s ≤ Fintype.card X) :
    (2 * Fintype.card X - s * (s - 1)) * (univ.filter fun π : Equiv.Perm X => P π).card * Fintype.card (X → X) ≤
      2 * Fintype.card X * (univ.filter P).card * Fintype.card (Equiv.Perm X) := by
  have h := card_switch Q P hQ hs hN
  rw [Fintype.card_perm, Fintype.card_fun]
  generalize (univ.filter fun π : Equiv.Perm X => P π).card = p at h ⊢
  generalize (univ.filter P).card = f at h ⊢
  generalize Fintype.card X = N at *
  have hd := desc_bound hN
  have hd' : (2 * N - s * (s - 1)) * N ^ s ≤ 2 * N * N.descFactorial s := by
    rw [Nat.sub_mul]; rw [Nat.mul_comm (N ^ s)] at hd; omega
  calc (2 * N - s * (s - 1)) * p * N ^ N = (2 * N - s * (s - 1)) * (N ^ N * p) := by ring
    _ ≤ (2 * N - s * (s - 1)) * (N ^ s * (N - s).factorial * f) := Nat.mul_le_mul_left _ h
    _ = (2 * N - s * (s - 1)) * N ^ s * ((N - s).factorial * f) := by ring
    _ ≤ 2 * N * N.descFactorial s * ((N - s).factorial * f) := Nat.mul_le_mul_right _ hd'
    _ = 2 * N * f * ((N - s).factorial * N.descFactorial s) := by ring
    _ = 2 * N * f * N.factorial := by rw [Nat.factorial_mul_descFactorial hN]

end Switch

/-! ## The values an attack on AES-GCM depends on -/

section Points

variable {A : List Seen → Ask} {L : Nat}

/-- The blocks enciphered for a message, without the one for the hash key. -/
noncomputable def pts (iv : Bytes 12) (n : Nat) : Finset (Bytes 16) := by
  classical
  exact insert (point iv 1) ((Finset.range ((n + 15) / 16)).image fun j => point iv (2 + BitVec.ofNat 32 j))

/-- The blocks enciphered for a question. -/
noncomputable def askPts : Ask → Finset (Bytes 16)
  | .enc iv _ m => pts iv m.length
  | .dec iv _ c _ => pts iv c.length
  | .stop => ∅

/-- The blocks enciphered for the first `k` questions. -/
noncomputable def playPts (A : List Seen → Ask) (F : ΩG) (k : Nat) : Finset (Bytes 16) := by
  classical
  exact insert (point zeroIv 0) ((Finset.range k).biUnion fun j => askPts (A (aesGcm.play A F j)))

theorem card_pts (iv : Bytes 12) (n : Nat) : (pts iv n).card ≤ 1 + (n + 15) / 16 := by
  classical
  rw [pts, Nat.add_comm 1]
  exact (Finset.card_insert_le _ _).trans (Nat.add_le_add_right (Finset.card_image_le.trans (by rw [Finset.card_range])) 1)

theorem card_askPts (hA : Proper A L) (h : List Seen) : (askPts (A h)).card ≤ L := by
  cases ha : A h with
  | stop => exact Nat.zero_le _
  | enc iv aad m =>
    have := hA.encLength _ _ _ _ ha
    have := card_pts iv m.length
    rw [blocks] at *
    rw [askPts]; omega
  | dec iv aad c t =>
    have := hA.decLength _ _ _ _ _ ha
    have := card_pts iv c.length
    rw [blocks] at *
    rw [askPts]; omega

theorem card_playPts (hA : Proper A L) (F : ΩG) (k : Nat) : (playPts A F k).card ≤ k * L + 1 := by
  classical
  rw [playPts]
  refine (Finset.card_insert_le _ _).trans (Nat.add_le_add_right (Finset.card_biUnion_le.trans ?_) 1)
  refine (Finset.sum_le_card_nsmul _ _ L fun j _ => card_askPts hA _).trans ?_
  rw [Finset.card_range, nsmul_eq_mul, Nat.cast_id]

theorem gcmCt_local {F F' : ΩG} {iv : Bytes 12} {m : List U8} (h : ∀ x ∈ pts iv m.length, F' x = F x) :
    gcmCt F' iv m = gcmCt F iv m := by
  classical
  rw [gcmCt, gcmCt]
  refine stream_congr fun j hj => ?_
  rw [h]
  rw [pts]
  exact Finset.mem_insert_of_mem (Finset.mem_image.mpr ⟨j, Finset.mem_range.mpr hj, rfl⟩)

theorem gTag_local {F F' : ΩG} {iv : Bytes 12} {n : Nat} (h0 : F' (point zeroIv 0) = F (point zeroIv 0))
    (h : ∀ x ∈ pts iv n, F' x = F x) (aad c : List U8) : gTag F' iv aad c = gTag F iv aad c := by
  classical
  rw [gTag, gTag, h0, h (point iv 1) (by rw [pts]; exact Finset.mem_insert_self _ _)]

theorem answer_local (hA : Proper A L) (hL : L < 2 ^ 32) {F F' : ΩG} (g : List Seen)
    (h0 : F' (point zeroIv 0) = F (point zeroIv 0)) (h : ∀ x ∈ askPts (A g), F' x = F x) :
    aesGcm.answer F' (A g) = aesGcm.answer F (A g) := by
  cases ha : A g with
  | stop => rfl
  | enc iv aad m =>
    rw [ha, askPts] at h
    have hm := len_of_blocks (hA.encLength _ _ _ _ ha) hL
    rw [Aead.answer, Aead.answer, aesGcm_enc F iv aad (by omega), aesGcm_enc F' iv aad (by omega), gcmCt_local h,
      gTag_local h0 h]
  | dec iv aad c t =>
    rw [ha, askPts] at h
    have hm := len_of_blocks (hA.decLength _ _ _ _ _ ha) hL
    rw [Aead.answer, Aead.answer, aesGcm_dec F iv aad (by omega), aesGcm_dec F' iv aad (by omega), gcmCt_local h,
      gTag_local h0 h]

theorem play_local (hA : Proper A L) (hL : L < 2 ^ 32) {F F' : ΩG} {q : Nat} (h : ∀ x ∈ playPts A F q, F' x = F x) :
    ∀ k, k ≤ q → aesGcm.play A F' k = aesGcm.play A F k := by
  classical
  rw [playPts] at h
  intro k
  induction k with
  | zero => exact fun _ => rfl
  | succ k ih =>
    intro hk
    have ih := ih (by omega)
    rw [Aead.play, Aead.play, ih]
    congr 2
    refine answer_local hA hL _ (h _ (Finset.mem_insert_self _ _)) fun x hx => h x ?_
    exact Finset.mem_insert_of_mem (Finset.mem_biUnion.mpr ⟨k, Finset.mem_range.mpr (by omega), hx⟩)

theorem playPts_local (hA : Proper A L) (hL : L < 2 ^ 32) {F F' : ΩG} {q : Nat} (h : ∀ x ∈ playPts A F q, F' x = F x) :
    playPts A F' q = playPts A F q := by
  classical
  rw [playPts, playPts]
  congr 1
  refine Finset.biUnion_congr rfl fun k hk => ?_
  rw [play_local hA hL h k (Nat.le_of_lt (Finset.mem_range.mp hk))]

theorem mem_play {Ω : Type} (S : Aead Ω) {F : Ω} {q : Nat} {x : Seen} :
    x ∈ S.play A F q ↔ ∃ k, k < q ∧ S.answer F (A (S.play A F k)) = x := by
  induction q with
  | zero => simp [Aead.play]
  | succ q ih =>
    rw [Aead.play, List.mem_append, List.mem_singleton, ih]
    constructor
    · rintro (⟨k, hk, h⟩ | h)
      · exact ⟨k, by omega, h⟩
      · exact ⟨q, by omega, h.symm⟩
    · rintro ⟨k, hk, h⟩
      rcases Nat.lt_or_eq_of_le (Nat.le_of_lt_succ hk) with hk | rfl
      · exact .inl ⟨k, hk, h⟩
      · exact .inr h.symm

/-- A forgery can be seen. -/
theorem forges_iff {Ω : Type} (S : Aead Ω) {F : Ω} {q : Nat} :
    S.Forges A q F ↔ ∃ iv aad c t p, Seen.dec iv aad c t (some p) ∈ S.play A F q := by
  constructor
  · rintro ⟨k, hk, iv, aad, c, t, p, h⟩
    exact ⟨iv, aad, c, t, p, (mem_play S).mpr ⟨k, hk, h⟩⟩
  · rintro ⟨iv, aad, c, t, p, h⟩
    obtain ⟨k, hk, h⟩ := (mem_play S).mp h
    exact ⟨k, hk, iv, aad, c, t, p, h⟩

end Points

end Hacspec.Ideal
