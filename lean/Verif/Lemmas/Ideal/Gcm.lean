import Verif.Lemmas.Ideal.ChaCha

/-! # Forgeries of AES-GCM with a random function in place of AES -/

namespace Hacspec.Ideal

open Spec Finset OneTime

/-! ## Exclusive or -/

section Xor

variable {n : Nat}

theorem bxor_comm (a b : Bytes n) : bxor a b = bxor b a := Subtype.ext (Aes.xor_comm' _ _)

theorem bxor_assoc (a b c : Bytes n) : bxor (bxor a b) c = bxor a (bxor b c) := by
  apply Subtype.ext
  apply List.ext_getElem
  · simp [bxor, Spec.xor, a.2, b.2, c.2]
  · intro i h1 h2
    simp [bxor, Spec.xor, BitVec.xor_assoc]

theorem bxor_cancel (a b : Bytes n) : bxor a (bxor a b) = b := by
  apply Subtype.ext
  apply List.ext_getElem
  · simp [bxor, Spec.xor, a.2, b.2]
  · intro i h1 h2
    simp [bxor, Spec.xor, ← BitVec.xor_assoc]

theorem bxor_cancel' (a b : Bytes n) : bxor b (bxor a a) = b := by
  rw [← bxor_assoc, bxor_comm, bxor_comm b, bxor_cancel]

theorem bxor_left_inj {a b c : Bytes n} (h : bxor a b = bxor a c) : b = c := by
  rw [← bxor_cancel a b, h, bxor_cancel]

/-- `t = g ⊕ x` where `x` is changed by `p ⊕ q`. -/
theorem bxor_shift (p q x : Bytes n) : bxor q (bxor x (bxor p q)) = bxor p x := by
  rw [bxor_comm p q, ← bxor_assoc x, bxor_comm x q, bxor_assoc, bxor_cancel, bxor_comm]

end Xor

/-! ## Points -/

/-- The functions that stand for AES with a key. -/
abbrev ΩG : Type := Bytes 16 → Bytes 16

theorem be32_inj {c c' : U32} (h : bytesBe32 c = bytesBe32 c') : c = c' := by
  simp only [bytesBe32, List.cons.injEq, and_true] at h
  obtain ⟨h1, h2, h3, h4⟩ := h
  have e : ∀ x : U32, x = x.extractLsb' 24 8 ++ x.extractLsb' 16 8 ++ x.extractLsb' 8 8 ++ x.extractLsb' 0 8 := by
    intro x
    apply BitVec.eq_of_getLsbD_eq
    intro i hi
    simp only [BitVec.getLsbD_append, BitVec.getLsbD_extractLsb']
    by_cases a : i < 8
    · simp [a]
    · by_cases b : i < 16
      · simp [a, show i - 8 < 8 by omega, show 8 + (i - 8) = i by omega]
      · by_cases c : i < 24
        · simp [a, show ¬ i - 8 < 8 by omega, show i - 8 - 8 < 8 by omega, show 16 + (i - 8 - 8) = i by omega]
        · simp [a, show ¬ i - 8 < 8 by omega, show ¬ i - 8 - 8 < 8 by omega, show 24 + (i - 8 - 8 - 8) = i by omega]
          omega
  rw [e c, e c', h1, h2, h3, h4]

theorem point_inj {iv iv' : Bytes 12} {c c' : U32} (h : point iv c = point iv' c') : iv = iv' ∧ c = c' := by
  have h := congrArg Subtype.val h
  have h := List.append_inj h (by rw [iv.2, iv'.2])
  exact ⟨Subtype.ext h.1, be32_inj h.2⟩

theorem ctr_ne_one {j : Nat} (h : 2 + j < 2 ^ 32) : (2 : U32) + BitVec.ofNat 32 j ≠ 1 := by
  intro e
  have := congrArg BitVec.toNat e
  rw [BitVec.toNat_add, BitVec.toNat_ofNat, show (2 : U32).toNat = 2 from rfl, Nat.mod_eq_of_lt (a := j) (by omega),
    Nat.mod_eq_of_lt h] at this
  exact absurd this (by simp; omega)

variable {A : List Seen → Ask} {L : Nat}

theorem gcm_ctr {aad m : List U8} (h : blocks aad m ≤ L) (hL : L < 2 ^ 32) {j : Nat} (hj : j < (m.length + 16 - 1) / 16) :
    2 + j < 2 ^ 32 := by
  rw [blocks] at h
  omega

theorem length_gcmCt (F : ΩG) (iv : Bytes 12) (m : List U8) : (gcmCt F iv m).length = m.length :=
  length_stream (by omega) (fun j => (F _).2) m

theorem gcmAnswer_enc (F : ΩG) (iv : Bytes 12) (aad : List U8) {m : List U8} (hm : m.length < 2 ^ 37) :
    blindAnswer aesGcm F (.enc iv aad m) = .enc iv aad (gcmCt F iv m) (gTag F iv aad (gcmCt F iv m)).1 := by
  rw [blindAnswer, Aead.answer, aesGcm_enc F iv aad (by omega)]

/-! ## A nonce that was not used -/

/-- Another mask for the nonce `N`. -/
noncomputable def setMask (F : ΩG) (N : Bytes 12) (b : Bytes 16) : ΩG := Function.update F (point N 1) b

theorem setMask_self (F : ΩG) (N : Bytes 12) (b : Bytes 16) : setMask (setMask F N b) N (F (point N 1)) = F := by
  rw [setMask, setMask, Function.update_idem, Function.update_eq_self]

theorem setMask_hash (F : ΩG) (N : Bytes 12) (b : Bytes 16) : setMask F N b (point zeroIv 0) = F (point zeroIv 0) := by
  rw [setMask, Function.update_of_ne]
  exact fun e => absurd (point_inj e).2 (by decide)

theorem gcmCt_setMask (F : ΩG) (N : Bytes 12) (b : Bytes 16) (iv : Bytes 12) {aad m : List U8} (h : blocks aad m ≤ L) (hL : L < 2 ^ 32) :
    gcmCt (setMask F N b) iv m = gcmCt F iv m := by
  refine stream_congr fun j hj => ?_
  rw [setMask, Function.update_of_ne]
  exact fun e => ctr_ne_one (gcm_ctr h hL hj) (point_inj e).2

theorem gTag_setMask_ne (F : ΩG) {N iv : Bytes 12} (b : Bytes 16) (h : iv ≠ N) (aad c : List U8) :
    gTag (setMask F N b) iv aad c = gTag F iv aad c := by
  rw [gTag, setMask_hash, setMask, Function.update_of_ne fun e => h (point_inj e).1]
  rfl

theorem gTag_setMask (F : ΩG) (N : Bytes 12) (b : Bytes 16) (aad c : List U8) :
    gTag (setMask F N b) N aad c = bxor (gh (F (point zeroIv 0)) aad c) b := by
  rw [gTag, setMask_hash, setMask, Function.update_self]

theorem blind_setMask (hA : Proper A L) (hL : L < 2 ^ 32) (F : ΩG) (N : Bytes 12) (b : Bytes 16) (k : Nat)
    (h : ∀ aad c t, Seen.enc N aad c t ∉ blind aesGcm A F k) : blind aesGcm A (setMask F N b) k = blind aesGcm A F k := by
  induction k with
  | zero => rfl
  | succ k ih =>
    have h0 : ∀ aad c t, Seen.enc N aad c t ∉ blind aesGcm A F k := fun aad c t hx =>
      h aad c t (List.mem_append_left _ hx)
    rw [blind, blind, ih h0]
    congr 2
    cases ha : A (blind aesGcm A F k) with
    | dec iv aad c t => rfl
    | stop => rfl
    | enc iv aad m =>
      have hb := hA.encLength _ _ _ _ ha
      have hm := (len_of_blocks hb hL).2
      have hn : iv ≠ N := by
        rintro rfl
        refine h aad (gcmCt F iv m) (gTag F iv aad (gcmCt F iv m)).1 ?_
        rw [blind, ha, gcmAnswer_enc F iv aad hm]
        exact List.mem_append_right _ (List.mem_singleton_self _)
      rw [gcmAnswer_enc _ _ _ hm, gcmAnswer_enc _ _ _ hm, gcmCt_setMask _ _ _ _ hb hL, gTag_setMask_ne _ _ hn]

theorem blind_setMask' (hA : Proper A L) (hL : L < 2 ^ 32) (F : ΩG) (N : Bytes 12) (b : Bytes 16) (k : Nat)
    (h : ∀ aad c t, Seen.enc N aad c t ∉ blind aesGcm A (setMask F N b) k) :
    blind aesGcm A (setMask F N b) k = blind aesGcm A F k := by
  have := blind_setMask hA hL (setMask F N b) N (F (point N 1)) k h
  rw [setMask_self] at this
  exact this.symm

/-- Question `k` is a forgery for a nonce that was not used. -/
def UnusedG (A : List Seen → Ask) (k : Nat) (F : ΩG) : Prop :=
  ∃ iv aad c t, A (blind aesGcm A F k) = .dec iv aad c t ∧ gTag F iv aad c = t ∧
    ∀ aad c t, Seen.enc iv aad c t ∉ blind aesGcm A F k

/-- Question `k` is a forgery for a nonce that was used. -/
def UsedG (A : List Seen → Ask) (k : Nat) (F : ΩG) : Prop :=
  ∃ iv aad c t, A (blind aesGcm A F k) = .dec iv aad c t ∧ gTag F iv aad c = t ∧
    ∃ aad c t, Seen.enc iv aad c t ∈ blind aesGcm A F k

open Classical in
theorem card_unusedG (hA : Proper A L) (hL : L < 2 ^ 32) (k : Nat) :
    2 ^ 128 * (univ.filter (UnusedG A k)).card ≤ Fintype.card ΩG := by
  have h := card_index (fun (N : Bytes 12) (F : ΩG) => F (point N 1)) (fun N F b => setMask F N b)
    (fun _ _ _ => Function.update_self _ _ _) (fun _ _ _ _ => Function.update_idem _ _ _)
    (fun N F => Function.update_eq_self (point N 1) F) (UnusedG A k)
    (fun N F => (∃ aad c t, A (blind aesGcm A F k) = .dec N aad c t) ∧ ∀ aad c t, Seen.enc N aad c t ∉ blind aesGcm A F k)
    (by
      rintro F i j ⟨⟨_, _, _, h1⟩, -⟩ ⟨⟨_, _, _, h2⟩, -⟩
      rw [h1] at h2
      simp only [Ask.dec.injEq] at h2
      exact h2.1)
    (by
      rintro F ⟨iv, aad, c, t, h1, -, h2⟩
      exact ⟨iv, ⟨aad, c, t, h1⟩, h2⟩)
    (by
      rintro N F b ⟨h1, h2⟩
      rw [blind_setMask' hA hL F N b k h2] at h1 h2
      exact ⟨h1, h2⟩)
    1
    (by
      rintro N F ⟨⟨aad, c, t, h1⟩, h2⟩
      rw [Finset.card_le_one]
      have key : ∀ b, UnusedG A k (setMask F N b) → bxor (gh (F (point zeroIv 0)) aad c) b = t := by
        rintro b ⟨iv, aad', c', t', h3, h4, -⟩
        rw [blind_setMask hA hL F N b k h2, h1] at h3
        simp only [Ask.dec.injEq] at h3
        obtain ⟨rfl, rfl, rfl, rfl⟩ := h3
        rw [← gTag_setMask, h4]
      intro b hb b' hb'
      simp only [Finset.mem_filter] at hb hb'
      exact bxor_left_inj ((key b hb.2.1).trans (key b' hb'.2.1).symm))
  rwa [card_bytes, Nat.one_mul] at h

/-! ## Another hash key -/

/-- Two encryptions with the same nonce are the same. -/
theorem enc_unique {Ω : Type} {S : Aead Ω} (hA : Proper A L) {F : Ω} {iv : Bytes 12} {aad c t aad' c' t' : List U8} {k : Nat}
    (h : Seen.enc iv aad c t ∈ blind S A F k) (h' : Seen.enc iv aad' c' t' ∈ blind S A F k) :
    aad = aad' ∧ c = c' ∧ t = t' := by
  have hmem : ∀ k aad c t, Seen.enc iv aad c t = blindAnswer S F (A (blind S A F k)) →
      ∃ m, A (blind S A F k) = .enc iv aad m := by
    intro k aad c t e
    cases ha : A (blind S A F k) with
    | dec iv aad c t => rw [ha, blindAnswer] at e; exact absurd e (by simp)
    | stop => rw [ha, blindAnswer] at e; exact absurd e (by simp)
    | enc iv' aad' m' =>
      rw [ha, blindAnswer, Aead.answer] at e
      split at e
      · simp only [Seen.enc.injEq] at e
        obtain ⟨rfl, rfl, -, -⟩ := e
        exact ⟨m', rfl⟩
      · exact absurd e (by simp)
  induction k with
  | zero => exact absurd h (by simp [blind])
  | succ k ih =>
    rw [blind, List.mem_append, List.mem_singleton] at h h'
    rcases h with h | h <;> rcases h' with h' | h'
    · exact ih h h'
    · exact absurd h (hA.once _ _ _ _ (hmem _ _ _ _ h').choose_spec _ _ _)
    · exact absurd h' (hA.once _ _ _ _ (hmem _ _ _ _ h).choose_spec _ _ _)
    · rw [← h'] at h
      simpa using h

open Classical in
/-- The data authenticated with the mask at `x`. -/
noncomputable def entry (τ : List Seen) (x : Bytes 16) : Option (List U8 × List U8) :=
  if h : ∃ p : List U8 × List U8, ∃ iv t, Seen.enc iv p.1 p.2 t ∈ τ ∧ x = point iv 1 then some h.choose else none

/-- Another hash key, and masks for which the tags in `τ` stay the same. -/
noncomputable def rekey (τ : List Seen) (F : ΩG) (H : Bytes 16) : ΩG :=
  Function.update (fun x => match entry τ x with
    | none => F x
    | some p => bxor (F x) (bxor (gh (F (point zeroIv 0)) p.1 p.2) (gh H p.1 p.2))) (point zeroIv 0) H

theorem rekey_hash (τ : List Seen) (F : ΩG) (H : Bytes 16) : rekey τ F H (point zeroIv 0) = H := Function.update_self _ _ _

theorem entry_ctr {τ : List Seen} {iv : Bytes 12} {c : U32} (hc : c ≠ 1) : entry τ (point iv c) = none := by
  rw [entry, dif_neg]
  rintro ⟨p, iv', t, -, e⟩
  exact hc (point_inj e).2

theorem rekey_ctr {τ : List Seen} {F : ΩG} {H : Bytes 16} {iv : Bytes 12} {c : U32} (h0 : c ≠ 0) (h1 : c ≠ 1) :
    rekey τ F H (point iv c) = F (point iv c) := by
  rw [rekey, Function.update_of_ne fun e => h0 (point_inj e).2, entry_ctr h1]

theorem rekey_mask {τ : List Seen} {F : ΩG} {H : Bytes 16} {iv : Bytes 12} {p : List U8 × List U8} (h : entry τ (point iv 1) = some p) :
    rekey τ F H (point iv 1) = bxor (F (point iv 1)) (bxor (gh (F (point zeroIv 0)) p.1 p.2) (gh H p.1 p.2)) := by
  rw [rekey, Function.update_of_ne fun e => absurd (point_inj e).2 (by decide), h]

theorem rekey_self (τ : List Seen) (F : ΩG) : rekey τ F (F (point zeroIv 0)) = F := by
  funext x
  rw [rekey]
  by_cases h : x = point zeroIv 0
  · rw [h, Function.update_self]
  · rw [Function.update_of_ne h]
    split
    · rfl
    · rw [bxor_cancel']

theorem rekey_rekey (τ : List Seen) (F : ΩG) (H H' : Bytes 16) : rekey τ (rekey τ F H) H' = rekey τ F H' := by
  funext x
  by_cases h : x = point zeroIv 0
  · rw [h, rekey_hash, rekey_hash]
  · rw [rekey, Function.update_of_ne h, rekey_hash, rekey, Function.update_of_ne h, rekey, Function.update_of_ne h]
    cases entry τ x with
    | none => rfl
    | some p =>
      show bxor (bxor (F x) _) _ = _
      rw [bxor_assoc, bxor_assoc, bxor_cancel]

theorem ctr_ne_zero {j : Nat} (h : 2 + j < 2 ^ 32) : (2 : U32) + BitVec.ofNat 32 j ≠ 0 := ctr_ne (c := 2) (by omega) h

theorem gcmCt_rekey (τ : List Seen) (F : ΩG) (H : Bytes 16) (iv : Bytes 12) {aad m : List U8} (h : blocks aad m ≤ L) (hL : L < 2 ^ 32) :
    gcmCt (rekey τ F H) iv m = gcmCt F iv m := by
  refine stream_congr fun j hj => ?_
  rw [rekey_ctr (ctr_ne_zero (gcm_ctr h hL hj)) (ctr_ne_one (gcm_ctr h hL hj))]

theorem entry_blind (hA : Proper A L) {F : ΩG} {k : Nat} {iv : Bytes 12} {aad c t : List U8}
    (h : Seen.enc iv aad c t ∈ blind aesGcm A F k) : entry (blind aesGcm A F k) (point iv 1) = some (aad, c) := by
  have hx : ∃ p : List U8 × List U8, ∃ iv' t, Seen.enc iv' p.1 p.2 t ∈ blind aesGcm A F k ∧ point iv 1 = point iv' 1 :=
    ⟨(aad, c), iv, t, h, rfl⟩
  rw [entry, dif_pos hx]
  obtain ⟨iv', t', h1, h2⟩ := hx.choose_spec
  obtain ⟨rfl, -⟩ := point_inj h2
  obtain ⟨e1, e2, -⟩ := enc_unique hA h h1
  rw [e1, e2]

theorem gTag_rekey (hA : Proper A L) {F : ΩG} {k : Nat} {iv : Bytes 12} {aad c t : List U8}
    (h : Seen.enc iv aad c t ∈ blind aesGcm A F k) (H : Bytes 16) :
    gTag (rekey (blind aesGcm A F k) F H) iv aad c = gTag F iv aad c := by
  rw [gTag, rekey_hash, rekey_mask (entry_blind hA h), bxor_shift, gTag]

theorem blind_values (hA : Proper A L) (hL : L < 2 ^ 32) {F : ΩG} {k : Nat} {iv : Bytes 12} {aad c t : List U8}
    (h : Seen.enc iv aad c t ∈ blind aesGcm A F k) : t = (gTag F iv aad c).1 ∧ blocks aad c ≤ L := by
  induction k with
  | zero => exact absurd h (by simp [blind])
  | succ k ih =>
    rw [blind, List.mem_append, List.mem_singleton] at h
    rcases h with h | h
    · exact ih h
    · cases ha : A (blind aesGcm A F k) with
      | dec iv aad c t => rw [ha, blindAnswer] at h; exact absurd h (by simp)
      | stop => rw [ha, blindAnswer] at h; exact absurd h (by simp)
      | enc iv' aad' m' =>
        have hb := hA.encLength _ _ _ _ ha
        rw [ha, gcmAnswer_enc _ _ _ (len_of_blocks hb hL).2] at h
        simp only [Seen.enc.injEq] at h
        obtain ⟨rfl, rfl, rfl, rfl⟩ := h
        refine ⟨rfl, ?_⟩
        rw [blocks, length_gcmCt]
        exact hb

/-- Nothing that is seen depends on the hash key. -/
theorem blind_rekey (hA : Proper A L) (hL : L < 2 ^ 32) (F : ΩG) (H : Bytes 16) (k : Nat) :
    blind aesGcm A (rekey (blind aesGcm A F k) F H) k = blind aesGcm A F k := by
  have key : ∀ i, i ≤ k → blind aesGcm A (rekey (blind aesGcm A F k) F H) i = blind aesGcm A F i := by
    intro i
    induction i with
    | zero => exact fun _ => rfl
    | succ i ih =>
      intro hi
      rw [blind, ih (by omega)]
      show _ = blind aesGcm A F i ++ [blindAnswer aesGcm F (A (blind aesGcm A F i))]
      congr 2
      have hmem := mem_blind aesGcm A (F := F) (show i < k by omega)
      cases ha : A (blind aesGcm A F i) with
      | dec iv aad c t => rfl
      | stop => rfl
      | enc iv aad m =>
        have hb := hA.encLength _ _ _ _ ha
        have hm := (len_of_blocks hb hL).2
        rw [ha, gcmAnswer_enc _ _ _ hm] at hmem
        rw [gcmAnswer_enc _ _ _ hm, gcmAnswer_enc _ _ _ hm, gcmCt_rekey _ _ _ _ hb hL]
        rw [gTag_rekey hA hmem]
  exact key k (le_refl k)

open Classical in
theorem card_usedG (hA : Proper A L) (hL : L < 2 ^ 32) (k : Nat) :
    2 ^ 128 * (univ.filter (UsedG A k)).card ≤ L * Fintype.card ΩG := by
  have h := card_act (fun F : ΩG => F (point zeroIv 0)) (fun F H => rekey (blind aesGcm A F k) F H)
    (fun F H => rekey_hash _ _ _) (fun F H H' => by rw [blind_rekey hA hL, rekey_rekey]) (fun F => rekey_self _ _) (UsedG A k)
  rw [card_bytes, show (256 : Nat) ^ 16 = 2 ^ 128 by norm_num] at h
  rw [h, Nat.mul_comm]
  refine (Finset.sum_le_card_nsmul _ _ L ?_).trans (by rw [Finset.card_univ, nsmul_eq_mul, Nat.cast_id])
  intro F _
  by_cases hq : ∃ iv aad c t aad' c' t', A (blind aesGcm A F k) = .dec iv aad c t ∧ Seen.enc iv aad' c' t' ∈ blind aesGcm A F k
  · obtain ⟨iv, aad, c, t, aad', c', t', h1, h2⟩ := hq
    obtain ⟨e', hb'⟩ := blind_values hA hL h2
    have hb := hA.decLength _ _ _ _ _ h1
    have l := len_of_blocks hb hL
    have l' := len_of_blocks hb' hL
    have hin : ∀ H, UsedG A k (rekey (blind aesGcm A F k) F H) → gTag (rekey (blind aesGcm A F k) F H) iv aad c = t := by
      rintro H ⟨iv1, aad1, c1, t1, h3, h4, -⟩
      rw [blind_rekey hA hL, h1] at h3
      simp only [Ask.dec.injEq] at h3
      obtain ⟨rfl, rfl, rfl, rfl⟩ := h3
      exact h4
    rw [← Finset.card_image_of_injective (f := Subtype.val) _ Subtype.val_injective, ← Finset.length_toList]
    by_cases hne : (aad, c) = (aad', c')
    · simp only [Prod.mk.injEq] at hne
      obtain ⟨rfl, rfl⟩ := hne
      refine (Nat.le_zero.mpr ?_).trans (Nat.zero_le _)
      rw [Finset.length_toList, Finset.card_eq_zero, Finset.image_eq_empty, Finset.filter_eq_empty_iff]
      intro H _ hu
      have := hin H hu
      rw [gTag_rekey hA h2] at this
      rw [← this] at h1
      rw [e'] at h2
      exact hA.fresh _ _ _ _ _ h1 h2
    · refine (Props.C72_gcm_universal aad c aad' c' (bxor t (bxor (F (point iv 1)) (gh (F (point zeroIv 0)) aad' c'))).1
        (by omega) (by omega) (by omega) (by omega) hne _ (Finset.nodup_toList _) ?_).trans (max_le hb hb')
      intro h hh
      obtain ⟨H, hH, rfl⟩ := Finset.mem_image.mp (Finset.mem_toList.mp hh)
      have e := hin H (Finset.mem_filter.mp hH).2
      refine ⟨H.2, _, _, _, _, AesGcm.padAadMsg_ok _ _, AesGcm.padAadMsg_ok _ _, Gf128.gmac_ok H.2, Gf128.gmac_ok H.2, ?_⟩
      refine congrArg Subtype.val (show bxor (gh H aad c) (gh H aad' c') = _ from ?_)
      rw [gTag, rekey_hash, rekey_mask (entry_blind hA h2)] at e
      rw [← e]
      generalize gh H aad c = a
      generalize gh H aad' c' = b
      generalize gh (F (point zeroIv 0)) aad' c' = d
      generalize F (point iv 1) = x
      rw [← bxor_assoc x d b, bxor_comm (bxor x d) b, ← bxor_assoc a b, bxor_assoc (bxor a b), bxor_cancel']
  · refine (Nat.le_zero.mpr ?_).trans (Nat.zero_le _)
    rw [Finset.card_eq_zero, Finset.filter_eq_empty_iff]
    rintro H - ⟨iv, aad, c, t, h1, -, aad', c', t', h2⟩
    rw [blind_rekey hA hL] at h1 h2
    exact hq ⟨_, _, _, _, _, _, _, h1, h2⟩

end Hacspec.Ideal
