import Verif.Lemmas.Ideal.Code
import Verif.Lemmas.Ideal.Games
import Verif.Props.OneTimeMac

/-! # Forgeries of ChaCha20-Poly1305 with a random block function -/

namespace Hacspec.Ideal

open Spec Finset OneTime

/-- The functions that stand for ChaCha20 with a key. -/
abbrev ΩC : Type := Bytes 12 × U32 → Bytes 64

/-! ## Changing the block of the one-time key -/

/-- Another block 0 for the nonce `N`. -/
noncomputable def setKey (F : ΩC) (N : Bytes 12) (b : Bytes 64) : ΩC := Function.update F (N, 0) b

theorem ctr_ne {c : Nat} {j : Nat} (hc : 0 < c) (h : c + j < 2 ^ 32) : BitVec.ofNat 32 c + BitVec.ofNat 32 j ≠ (0 : U32) := by
  intro e
  have := congrArg BitVec.toNat e
  rw [BitVec.toNat_add, BitVec.toNat_ofNat, BitVec.toNat_ofNat, Nat.mod_eq_of_lt (a := c) (by omega), Nat.mod_eq_of_lt (a := j) (by omega),
    Nat.mod_eq_of_lt h] at this
  exact absurd this (by simp; omega)

theorem stream_congr {n : Nat} {g g' : Nat → List U8} {m : List U8} (h : ∀ j, j < (m.length + n - 1) / n → g j = g' j) :
    stream n g m = stream n g' m := by
  rw [stream, stream]
  refine List.flatMap_congr fun j hj => ?_
  rw [h j (List.mem_range.mp hj)]

theorem length_stream {n : Nat} (hn : 0 < n) {g : Nat → List U8} (hg : ∀ j, (g j).length = n) (m : List U8) :
    (stream n g m).length = m.length := by
  have hlt : ∀ i, i < (m.length + n - 1) / n → n * i < m.length := by
    intro i hi
    have h1 : n * (i + 1) ≤ m.length + n - 1 := Nat.le_trans (Nat.mul_le_mul_left _ hi) (Nat.mul_div_le _ _)
    rw [Nat.mul_succ] at h1; omega
  rw [stream, Seq.length_flatMap_chunks (cs := n) (len := m.length) (fun j hj => by
    rw [Spec.xor, List.length_zipWith, hg, ChaCha.length_block]; omega) hlt]
  have := Nat.lt_mul_div_succ (m.length + n - 1) hn
  rw [Nat.mul_add, Nat.mul_one] at this; omega

theorem chachaCt_setKey (F : ΩC) (N : Bytes 12) (b : Bytes 64) (iv : Bytes 12) {m : List U8} (hm : m.length < 2 ^ 37) :
    chachaCt (setKey F N b) iv m = chachaCt F iv m := by
  refine stream_congr fun j hj => ?_
  rw [setKey, Function.update_of_ne]
  intro e
  exact ctr_ne (c := 1) (by omega) (by omega) (congrArg Prod.snd e)

theorem polyKey_setKey (F : ΩC) (N : Bytes 12) (b : Bytes 64) : polyKey (setKey F N b) N = b.1.take 32 := by
  rw [polyKey, setKey, Function.update_self]

theorem polyKey_setKey_ne (F : ΩC) {N iv : Bytes 12} (b : Bytes 64) (h : iv ≠ N) : polyKey (setKey F N b) iv = polyKey F iv := by
  rw [polyKey, setKey, Function.update_of_ne fun e => h (congrArg Prod.fst e)]
  rfl

theorem setKey_setKey (F : ΩC) (N : Bytes 12) (b b' : Bytes 64) : setKey (setKey F N b) N b' = setKey F N b' :=
  Function.update_idem _ _ _

theorem setKey_self (F : ΩC) (N : Bytes 12) (b : Bytes 64) : setKey (setKey F N b) N (F (N, 0)) = F := by
  rw [setKey_setKey, setKey, Function.update_eq_self]

/-! ## What is seen -/

variable {A : List Seen → Ask} {L : Nat}

theorem len_of_blocks {aad m : List U8} (h : blocks aad m ≤ L) (hL : L < 2 ^ 32) : aad.length < 2 ^ 37 ∧ m.length < 2 ^ 37 := by
  rw [blocks] at h
  omega

theorem blindAnswer_enc (F : ΩC) (iv : Bytes 12) (aad : List U8) {m : List U8} (hm : m.length < 2 ^ 37) :
    blindAnswer chachaPoly F (.enc iv aad m) =
      .enc iv aad (chachaCt F iv m) (polyTag (polyKey F iv) aad (chachaCt F iv m)) := by
  rw [blindAnswer, Aead.answer, chachaPoly_enc F iv aad (by omega)]

/-- Nothing that is seen depends on the one-time key of a nonce that was not used. -/
theorem blind_setKey (hA : Proper A L) (hL : L < 2 ^ 32) (F : ΩC) (N : Bytes 12) (b : Bytes 64) (k : Nat)
    (h : ∀ aad c t, Seen.enc N aad c t ∉ blind chachaPoly A F k) :
    blind chachaPoly A (setKey F N b) k = blind chachaPoly A F k := by
  induction k with
  | zero => rfl
  | succ k ih =>
    have h0 : ∀ aad c t, Seen.enc N aad c t ∉ blind chachaPoly A F k := fun aad c t hx =>
      h aad c t (List.mem_append_left _ hx)
    rw [blind, blind, ih h0]
    congr 2
    cases ha : A (blind chachaPoly A F k) with
    | dec iv aad c t => rfl
    | stop => rfl
    | enc iv aad m =>
      have hm := (len_of_blocks (hA.encLength _ _ _ _ ha) hL).2
      have hn : iv ≠ N := by
        rintro rfl
        refine h aad (chachaCt F iv m) (polyTag (polyKey F iv) aad (chachaCt F iv m)) ?_
        rw [blind, ha, blindAnswer_enc F iv aad hm]
        exact List.mem_append_right _ (List.mem_singleton_self _)
      rw [blindAnswer_enc _ _ _ hm, blindAnswer_enc _ _ _ hm, chachaCt_setKey _ _ _ _ hm, polyKey_setKey_ne _ _ hn]

theorem blind_setKey' (hA : Proper A L) (hL : L < 2 ^ 32) (F : ΩC) (N : Bytes 12) (b : Bytes 64) (k : Nat)
    (h : ∀ aad c t, Seen.enc N aad c t ∉ blind chachaPoly A (setKey F N b) k) :
    blind chachaPoly A (setKey F N b) k = blind chachaPoly A F k := by
  have := blind_setKey hA hL (setKey F N b) N (F (N, 0)) k h
  rw [setKey_self] at this
  exact this.symm

/-- The one-time key of a nonce matters only through the tag given for this nonce. -/
theorem blind_tag (hA : Proper A L) (hL : L < 2 ^ 32) (F : ΩC) {N : Bytes 12} {aad m : List U8} {j : Nat}
    (hj : A (blind chachaPoly A F j) = .enc N aad m) (b b' : Bytes 64)
    (ht : polyTag (b.1.take 32) aad (chachaCt F N m) = polyTag (b'.1.take 32) aad (chachaCt F N m)) (k : Nat) (hk : j ≤ k) :
    blind chachaPoly A (setKey F N b) k = blind chachaPoly A (setKey F N b') k := by
  have hm := (len_of_blocks (hA.encLength _ _ _ _ hj) hL).2
  have e1 := fun b => blind_setKey hA hL F N b j (hA.once _ _ _ _ hj)
  induction k, hk using Nat.le_induction with
  | base => rw [e1, e1]
  | succ k hk ih =>
    rw [blind, blind, ← ih]
    congr 2
    cases ha : A (blind chachaPoly A (setKey F N b) k) with
    | dec iv aad c t => rfl
    | stop => rfl
    | enc iv aad' m' =>
      have hm' := (len_of_blocks (hA.encLength _ _ _ _ ha) hL).2
      rw [blindAnswer_enc _ _ _ hm', blindAnswer_enc _ _ _ hm', chachaCt_setKey _ _ _ _ hm', chachaCt_setKey _ _ _ _ hm']
      by_cases hn : iv = N
      · subst hn
        rcases Nat.lt_or_eq_of_le hk with hlt | rfl
        · refine absurd ?_ (hA.once _ _ _ _ ha aad (chachaCt F iv m) (polyTag (b.1.take 32) aad (chachaCt F iv m)))
          have := mem_blind chachaPoly A (F := setKey F iv b) hlt
          rwa [e1, hj, blindAnswer_enc _ _ _ hm, chachaCt_setKey _ _ _ _ hm, polyKey_setKey] at this
        · rw [e1, hj] at ha
          simp only [Ask.enc.injEq] at ha
          obtain ⟨-, rfl, rfl⟩ := ha
          rw [polyKey_setKey, polyKey_setKey, ht]
      · rw [polyKey_setKey_ne _ _ hn, polyKey_setKey_ne _ _ hn]

/-! ## Counting -/

theorem card_bytes (n : Nat) : Fintype.card (Bytes n) = 256 ^ n := by
  rw [← card_byteStrings, Fintype.card_of_subtype (byteStrings n) fun x => mem_byteStrings]

/-- Each one-time key is the first half of `2^256` blocks. -/
theorem card_halves (Q : List U8 → Prop) [DecidablePred Q] :
    (univ.filter fun b : Bytes 64 => Q (b.1.take 32)).card ≤ 2 ^ 256 * ((byteStrings 32).filter Q).card := by
  refine Finset.card_le_mul_card_image_of_maps_to (f := fun b : Bytes 64 => b.1.take 32) ?_ _ ?_
  · intro b hb
    refine Finset.mem_filter.mpr ⟨mem_byteStrings.mpr ?_, (Finset.mem_filter.mp hb).2⟩
    rw [List.length_take, b.2]; rfl
  · intro k _
    rw [show 2 ^ 256 = (byteStrings 32).card by rw [card_byteStrings]; norm_num]
    refine Finset.card_le_card_of_injOn (fun b => b.1.drop 32) ?_ ?_
    · intro b _
      exact mem_byteStrings.mpr (by show (b.1.drop 32).length = 32; rw [List.length_drop, b.2])
    · intro b hb b' hb' h
      have h1 := (Finset.mem_filter.mp (Finset.mem_coe.mp hb)).2
      have h2 := (Finset.mem_filter.mp (Finset.mem_coe.mp hb')).2
      apply Subtype.ext
      rw [← List.take_append_drop 32 b.1, ← List.take_append_drop 32 b'.1]
      exact congr (congrArg _ (h1.trans h2.symm)) h

open Classical in
theorem card_setKey (P : ΩC → Prop) (R : Bytes 12 → ΩC → Prop)
    (hu : ∀ F i j, R i F → R j F → i = j) (hP : ∀ F, P F → ∃ i, R i F) (hR : ∀ N F b, R N (setKey F N b) → R N F) (B : Nat)
    (hB : ∀ N F, R N F → ∃ s : Finset (Bytes 64), (∀ b, P (setKey F N b) → b ∈ s) ∧ s.card ≤ B) :
    256 ^ 64 * (univ.filter P).card ≤ B * Fintype.card ΩC := by
  have h := card_index (fun (N : Bytes 12) (F : ΩC) => F (N, 0)) (fun N F b => setKey F N b) (fun _ _ _ => Function.update_self _ _ _)
    (fun _ _ _ _ => setKey_setKey _ _ _ _) (fun N F => Function.update_eq_self (N, 0) F) P R hu hP hR B (by
      intro N F hr
      obtain ⟨s, h1, h2⟩ := hB N F hr
      exact (Finset.card_le_card fun b hb => h1 b (Finset.mem_filter.mp hb).2.1).trans h2)
  rwa [card_bytes] at h

/-- Question `k` is a forgery for a nonce that was not used. -/
def Unused (A : List Seen → Ask) (k : Nat) (F : ΩC) : Prop :=
  ∃ iv aad c t, A (blind chachaPoly A F k) = .dec iv aad c t ∧ polyTag (polyKey F iv) aad c = t.1 ∧
    ∀ aad c t, Seen.enc iv aad c t ∉ blind chachaPoly A F k

/-- Question `k` is a forgery for the nonce of question `j`. -/
def Used (A : List Seen → Ask) (j k : Nat) (F : ΩC) : Prop :=
  ∃ iv aad c t aad' m, A (blind chachaPoly A F k) = .dec iv aad c t ∧ polyTag (polyKey F iv) aad c = t.1 ∧
    A (blind chachaPoly A F j) = .enc iv aad' m

open Classical in
theorem card_unused (hA : Proper A L) (hL : L < 2 ^ 32) (k : Nat) :
    2 ^ 127 * (univ.filter (Unused A k)).card ≤ Fintype.card ΩC := by
  have h := card_setKey (Unused A k)
    (fun N F => (∃ aad c t, A (blind chachaPoly A F k) = .dec N aad c t) ∧ ∀ aad c t, Seen.enc N aad c t ∉ blind chachaPoly A F k)
    (by
      rintro F i j ⟨⟨_, _, _, h1⟩, -⟩ ⟨⟨_, _, _, h2⟩, -⟩
      rw [h1] at h2
      simp only [Ask.dec.injEq] at h2
      exact h2.1)
    (by
      rintro F ⟨iv, aad, c, t, h1, -, h2⟩
      exact ⟨iv, ⟨aad, c, t, h1⟩, h2⟩)
    (by
      rintro N F b ⟨h1, h2⟩
      have := blind_setKey' hA hL F N b k h2
      rw [this] at h1 h2
      exact ⟨h1, h2⟩)
    (2 ^ 256 * (2 * 2 ^ 128))
    (by
      rintro N F ⟨⟨aad, c, t, h1⟩, h2⟩
      refine ⟨univ.filter fun b : Bytes 64 => Hacspec.Poly1305.poly (Poly1305.macData aad c) (b.1.take 32) = .ok t.1, ?_,
        (card_halves fun k => Hacspec.Poly1305.poly (Poly1305.macData aad c) k = .ok t.1).trans
          (Nat.mul_le_mul_left _ (Props.C97_tag_count_partial _ _))⟩
      rintro b ⟨iv, aad', c', t', h3, h4, -⟩
      have e := blind_setKey hA hL F N b k h2
      rw [e, h1] at h3
      simp only [Ask.dec.injEq] at h3
      obtain ⟨rfl, rfl, rfl, rfl⟩ := h3
      refine Finset.mem_filter.mpr ⟨Finset.mem_univ _, ?_⟩
      have h5 := polyKey_setKey F N b
      rw [h5] at h4
      rw [(polyTag_ok (by rw [List.length_take, b.2]; rfl) _ _).1, h4])
  rw [show (256 : Nat) ^ 64 = 2 ^ 385 * 2 ^ 127 by decide +kernel, show 2 ^ 256 * (2 * 2 ^ 128) = 2 ^ 385 by decide +kernel, Nat.mul_assoc] at h
  exact Nat.le_of_mul_le_mul_left h (Nat.two_pow_pos _)

open Classical in
theorem card_used (hA : Proper A L) (hL : L < 2 ^ 32) {j k : Nat} (hjk : j < k) :
    2 ^ 102 * (univ.filter (Used A j k)).card ≤ L * Fintype.card ΩC := by
  have h := card_setKey (Used A j k)
    (fun N F => ∃ aad m, A (blind chachaPoly A F j) = .enc N aad m)
    (by
      rintro F i j ⟨_, _, h1⟩ ⟨_, _, h2⟩
      rw [h1] at h2
      simp only [Ask.enc.injEq] at h2
      exact h2.1)
    (by
      rintro F ⟨iv, aad, c, t, aad', m, -, -, h2⟩
      exact ⟨iv, aad', m, h2⟩)
    (by
      rintro N F b ⟨aad, m, h1⟩
      refine ⟨aad, m, ?_⟩
      have := blind_setKey' hA hL F N b j (hA.once _ _ _ _ h1)
      rwa [← this])
    (2 ^ 256 * (2 ^ 154 * L))
    (by
      rintro N F ⟨aad, m, hj⟩
      have hm := len_of_blocks (hA.encLength _ _ _ _ hj) hL
      have hct : (chachaCt F N m).length = m.length := length_stream (by omega) (fun j => (F _).2) m
      -- what is asked for a given tag
      let ok : List U8 → (List U8 × List U8) × List U8 → Prop := fun t r =>
        ∃ b : Bytes 64, polyTag (b.1.take 32) aad (chachaCt F N m) = t ∧ ∃ t' : Bytes 16, r.2 = t'.1 ∧
          A (blind chachaPoly A (setKey F N b) k) = .dec N r.1.1 r.1.2 t' ∧ r.1 ≠ (aad, chachaCt F N m)
      have hok : ∀ t r, ok t r → blocks r.1.1 r.1.2 ≤ L ∧ r.1 ≠ (aad, chachaCt F N m) := by
        rintro t r ⟨b, -, t', -, h1, h2⟩
        exact ⟨hA.decLength _ _ _ _ _ h1, h2⟩
      have huniq : ∀ t r r', ok t r → ok t r' → r = r' := by
        rintro t ⟨⟨a, c⟩, s⟩ ⟨⟨a', c'⟩, s'⟩ ⟨b, hb, t', e1, h1, -⟩ ⟨b', hb', t'', e2, h2, -⟩
        simp only at e1 e2 h1 h2
        rw [blind_tag hA hL F hj b b' (hb.trans hb'.symm) k (by omega), h2] at h1
        simp only [Ask.dec.injEq] at h1
        obtain ⟨-, rfl, rfl, rfl⟩ := h1
        rw [e1, e2]
      -- every success is an answer
      have hin : ∀ b : Bytes 64, Used A j k (setKey F N b) → ∃ r, ok (polyTag (b.1.take 32) aad (chachaCt F N m)) r ∧
          polyTag (b.1.take 32) r.1.1 r.1.2 = r.2 := by
        rintro b ⟨iv, aad', c', t', aad'', m'', h1, h2, h3⟩
        have e := blind_setKey hA hL F N b j (hA.once _ _ _ _ hj)
        rw [e, hj] at h3
        simp only [Ask.enc.injEq] at h3
        obtain ⟨rfl, rfl, rfl⟩ := h3
        rw [polyKey_setKey] at h2
        refine ⟨((aad', c'), t'.1), ⟨b, rfl, t', rfl, h1, ?_⟩, h2⟩
        intro hc
        simp only [Prod.mk.injEq] at hc
        obtain ⟨rfl, rfl⟩ := hc
        refine hA.fresh _ _ _ _ _ h1 ?_
        have := mem_blind chachaPoly A (F := setKey F N b) hjk
        rw [e, hj, blindAnswer_enc _ _ _ hm.2, chachaCt_setKey _ _ _ _ hm.2, polyKey_setKey, h2] at this
        exact this
      by_cases hne : ∃ r0 : (List U8 × List U8) × List U8, blocks r0.1.1 r0.1.2 ≤ L ∧ r0.1 ≠ (aad, chachaCt F N m)
      · obtain ⟨r0, hr0⟩ := hne
        let answer : List U8 → (List U8 × List U8) × List U8 := fun t => if h : ∃ r, ok t r then h.choose else r0
        have hans : ∀ t r, ok t r → answer t = r := by
          intro t r hr
          have hx : ∃ r, ok t r := ⟨r, hr⟩
          show (if h : ∃ r, ok t r then h.choose else r0) = r
          rw [dif_pos hx]
          exact huniq t _ _ hx.choose_spec hr
        have hans2 : ∀ t, blocks (answer t).1.1 (answer t).1.2 ≤ L ∧ (answer t).1 ≠ (aad, chachaCt F N m) := by
          intro t
          by_cases hx : ∃ r, ok t r
          · obtain ⟨r, hr⟩ := hx
            rw [hans t r hr]
            exact hok t r hr
          · have : answer t = r0 := dif_neg hx
            rw [this]
            exact hr0
        have hb := hA.encLength _ _ _ _ hj
        refine ⟨univ.filter fun b : Bytes 64 => ∃ d t d', Hacspec.ChaChaPoly.padAadMsg aad (chachaCt F N m) = .ok d ∧
          Hacspec.Poly1305.poly d (b.1.take 32) = .ok t ∧
          Hacspec.ChaChaPoly.padAadMsg (answer t).1.1 (answer t).1.2 = .ok d' ∧
          Hacspec.Poly1305.poly d' (b.1.take 32) = .ok (answer t).2, ?_,
          (card_halves fun key => ∃ d t d', Hacspec.ChaChaPoly.padAadMsg aad (chachaCt F N m) = .ok d ∧
            Hacspec.Poly1305.poly d key = .ok t ∧ Hacspec.ChaChaPoly.padAadMsg (answer t).1.1 (answer t).1.2 = .ok d' ∧
            Hacspec.Poly1305.poly d' key = .ok (answer t).2).trans
            (Nat.mul_le_mul_left _ (Props.C97_aead_forgery aad (chachaCt F N m) answer L
              (fun t => by have := len_of_blocks (hans2 t).1 hL; omega) (by omega) (by omega)
              (by rw [blocks, ← hct] at hb; exact hb) (fun t => (hans2 t).1) (fun t => (hans2 t).2)))⟩
        intro b hu
        obtain ⟨r, hr, h2⟩ := hin b hu
        have hl : (b.1.take 32).length = 32 := by rw [List.length_take, b.2]; rfl
        refine Finset.mem_filter.mpr ⟨Finset.mem_univ _, _, _, _, Hacspec.ChaChaPoly.padAadMsg_ok _ _, (polyTag_ok hl _ _).1,
          Hacspec.ChaChaPoly.padAadMsg_ok _ _, ?_⟩
        rw [hans _ _ hr, (polyTag_ok hl _ _).1, h2]
      · refine ⟨∅, ?_, Nat.zero_le _⟩
        intro b hu
        obtain ⟨r, hr, -⟩ := hin b hu
        exact absurd ⟨r, hok _ _ hr⟩ hne)
  rw [show (256 : Nat) ^ 64 = 2 ^ 410 * 2 ^ 102 by decide +kernel, show 2 ^ 256 * (2 ^ 154 * L) = 2 ^ 410 * L by rw [← Nat.mul_assoc, ← Nat.pow_add], Nat.mul_assoc, Nat.mul_assoc] at h
  exact Nat.le_of_mul_le_mul_left h (Nat.two_pow_pos _)

end Hacspec.Ideal
