import Verif.Lemmas.Ideal.Sealed
import Verif.Props.CounterModes

/-! # C132: authenticated encryption gives strings like random ones, and decrypts nothing -/

namespace Hacspec.Props

open Spec Hacspec.Ideal Finset OneTime

/-- Answers to questions by the rules matter only. -/
theorem run_allowed {D X O : Type} (g : D → X) {L : Nat} {ev ev' : Ask → Seen} (he : ∀ a h, a.Allowed L h → ev a = ev' a)
    {p : Prog (D ⊕ Ask) (X ⊕ Seen) O} {h : List Seen} (hp : ByRules id L p h) : p.run (sideAnswer g ev) = p.run (sideAnswer g ev') := by
  induction p generalizing h with
  | ret o => rfl
  | ask x k ih =>
    cases x with
    | inl d => exact ih _ (hp _)
    | inr a =>
      show (k (.inr (ev a))).run _ = (k (.inr (ev' a))).run _
      rw [← he a h hp.1]
      exact ih _ (hp.2 _)

theorem sealPoints_nodup {n : Nat} (hn : 16 ≤ n) {t c L : Nat} (htc : t < c) (hc : c ≤ 2) (hL : L < 2 ^ 32) (iv : Bytes 12) (aad m : List U8)
    (h : blocks aad m ≤ L) : (sealPoints n (BitVec.ofNat 32 t) (BitVec.ofNat 32 c) (.enc iv aad m)).Nodup := by
  have hN : (m.length + n - 1) / n ≤ (m.length + 15) / 16 := by
    have h1 := Nat.lt_mul_div_succ (m.length + 15) (b := 16) (by omega)
    rw [← Nat.lt_add_one_iff, Nat.div_lt_iff_lt_mul (by omega)]
    have h2 : 16 * ((m.length + 15) / 16 + 1) = 16 * ((m.length + 15) / 16) + 16 := by ring
    have h3 : ((m.length + 15) / 16 + 1) * n = ((m.length + 15) / 16) * n + n := by ring
    have h4 : (m.length + 15) / 16 * 16 ≤ (m.length + 15) / 16 * n := Nat.mul_le_mul_left _ hn
    omega
  rw [blocks] at h
  refine List.nodup_cons.mpr ⟨fun hm => ?_, (List.nodup_map_iff_inj_on List.nodup_range).mpr fun i hi j hj e => ?_⟩
  · obtain ⟨-, i, hi, e⟩ := mem_streamBlocks hm
    have := congrArg BitVec.toNat e
    simp only [BitVec.toNat_add, BitVec.toNat_ofNat] at this hi
    omega
  · rw [List.mem_range] at hi hj
    exact ctr_inj (c0 := c) (N := (m.length + n - 1) / n) (by omega) hi hj (Prod.ext_iff.mp e).2

/-! ## ChaCha20-Poly1305 -/

/-- The middle of a block of ChaCha20. -/
def midPut (y : Bytes 64) (s : Bytes 16) : Bytes 64 :=
  ⟨y.1.take 16 ++ (s.1 ++ y.1.drop 32), by
    have h1 := y.2; have h2 := s.2
    rw [List.length_append, List.length_append, List.length_take, List.length_drop]; omega⟩

def midOf (y : Bytes 64) : Bytes 16 :=
  ⟨(y.1.drop 16).take 16, by have h1 := y.2; rw [List.length_take, List.length_drop]; omega⟩

theorem midOf_put (y : Bytes 64) (s : Bytes 16) : midOf (midPut y s) = s := by
  have h1 := y.2; have h2 := s.2
  refine Subtype.ext ?_
  show ((y.1.take 16 ++ (s.1 ++ y.1.drop 32)).drop 16).take 16 = s.1
  rw [List.drop_left' (by rw [List.length_take]; omega), List.take_left' h2]

theorem midPut_put (y : Bytes 64) (s s' : Bytes 16) : midPut (midPut y s) s' = midPut y s' := by
  have h1 := y.2; have h2 := s.2
  refine Subtype.ext ?_
  show (y.1.take 16 ++ (s.1 ++ y.1.drop 32)).take 16 ++ (s'.1 ++ (y.1.take 16 ++ (s.1 ++ y.1.drop 32)).drop 32) =
    y.1.take 16 ++ (s'.1 ++ y.1.drop 32)
  rw [List.take_left' (by rw [List.length_take]; omega), ← List.append_assoc (y.1.take 16) s.1,
    List.drop_left' (by rw [List.length_append, List.length_take]; omega)]

theorem midPut_of (y : Bytes 64) : midPut y (midOf y) = y := by
  refine Subtype.ext ?_
  show y.1.take 16 ++ ((y.1.drop 16).take 16 ++ y.1.drop 32) = y.1
  rw [show y.1.drop 32 = (y.1.drop 16).drop 16 by rw [List.drop_drop], List.take_append_drop, List.take_append_drop]

instance nonemptyBytes (n : Nat) : Nonempty (Bytes n) := ⟨⟨List.replicate n 0, List.length_replicate⟩⟩

theorem share_mid (P : Bytes 64 → Prop) : share (fun x : Bytes 64 × Bytes 16 => P (midPut x.1 x.2)) = share P := by
  let e : Bytes 64 × Bytes 16 ≃ Bytes 64 × Bytes 16 :=
    ⟨fun x => (midPut x.1 x.2, midOf x.1), fun x => (midPut x.1 x.2, midOf x.1),
      fun x => Prod.ext ((midPut_put ..).trans (midPut_of _)) (midOf_put ..),
      fun x => Prod.ext ((midPut_put ..).trans (midPut_of _)) (midOf_put ..)⟩
  exact (share_equiv e fun x => P x.1).trans (share_fst P)

theorem mem_filter_prop {A : Type} [Fintype A] {P : A → Prop} {inst : DecidablePred P} {a : A} : a ∈ @Finset.filter A P inst univ ↔ P a := by
  rw [Finset.mem_filter]
  exact ⟨fun h => h.2, fun h => ⟨Finset.mem_univ _, h⟩⟩

/-- A function that is injective but for few arguments. -/
theorem share_near {A : Type} [Fintype A] {τ : A → A} {bad : A → Prop} (hτ : ∀ a b, ¬ bad a → ¬ bad b → τ a = τ b → a = b) (P : A → Prop) :
    share (fun a => P (τ a)) ≤ share P + share bad := by
  classical
  refine (share_le_add (Q := fun a => P (τ a) ∧ ¬ bad a) fun a h => or_iff_not_imp_right.mpr fun hb => ⟨h, hb⟩).trans (add_le_add_left ?_ _)
  rw [share, share]
  refine div_le_div_of_nonneg_right (Nat.cast_le.mpr (Finset.card_le_card_of_injOn τ ?_ ?_)) (Nat.cast_nonneg _)
  · intro a ha
    have := (mem_filter_prop.mp (Finset.mem_coe.mp ha))
    exact Finset.mem_coe.mpr (mem_filter_prop.mpr this.1)
  · intro a ha b hb e
    exact hτ a b (mem_filter_prop.mp (Finset.mem_coe.mp ha)).2 (mem_filter_prop.mp (Finset.mem_coe.mp hb)).2 e

theorem polyTag_near {k k' : List U8} (hk : k.length = 32) (hk' : k'.length = 32) (h : k.take 16 = k'.take 16) {aad c : List U8}
    (e : polyTag k aad c = polyTag k' aad c) (hs : Poly1305.keyS k < 2 ^ 128 - 5) (hs' : Poly1305.keyS k' < 2 ^ 128 - 5) : k = k' := by
  have e1 := (polyTag_ok hk aad c).1
  have e2 := (polyTag_ok hk' aad c).1
  rw [← e] at e2
  refine poly_inj hk hk' h e1 e2 ?_
  rw [C38_poly _ _ hk, Except.ok.injEq] at e1
  rw [C38_poly _ _ hk', Except.ok.injEq, ← e1] at e2
  have e := leBytes_inj e2
  have hr : Poly1305.clampR k' = Poly1305.clampR k := by rw [← clampR_take, ← h, clampR_take]
  have ha := acc_lt (Poly1305.clampR k) (Poly1305.macData aad c)
  rw [hr] at e ⊢
  have hp : Poly1305.p = 2 ^ 130 - 5 := rfl
  rw [show (256 : Nat) ^ 16 = 2 ^ 128 by norm_num] at e
  generalize Poly1305.acc (Poly1305.clampR k) (Poly1305.macData aad c) = a at *
  generalize Poly1305.keyS k = s at *
  generalize Poly1305.keyS k' = s' at *
  have hm : ∀ s, s < 2 ^ 128 → ¬ a + s < Poly1305.p → (a + s) % Poly1305.p = a + s - Poly1305.p := fun s hs hn => by
    rw [Nat.mod_eq_sub_mod (by omega), Nat.mod_eq_of_lt (by omega)]
  constructor
  · intro h1
    by_contra h2
    rw [Nat.mod_eq_of_lt h1, hm s' (by omega) h2] at e
    omega
  · intro h1
    by_contra h2
    rw [Nat.mod_eq_of_lt h1, hm s (by omega) h2] at e
    omega

theorem share_polyTag (aad c : List U8) (P : List U8 → Prop) :
    share (fun y : Bytes 64 => P (polyTag (y.1.take 32) aad c)) ≤ share (fun y : Bytes 64 => P ((y.1.drop 16).take 16)) + 5 / 2 ^ 128 := by
  classical
  rw [← share_mid, ← share_mid fun y : Bytes 64 => P ((y.1.drop 16).take 16)]
  refine share_prod_add fun y => ?_
  have hy := y.2
  have hl : ∀ s : Bytes 16, (y.1.take 16 ++ s.1).length = 32 := fun s => by rw [List.length_append, List.length_take, s.2]; omega
  have h16 : ∀ s : Bytes 16, (y.1.take 16 ++ s.1).take 16 = y.1.take 16 := fun s =>
    List.take_left' (by rw [List.length_take]; omega)
  have hd : ∀ s : Bytes 16, (y.1.take 16 ++ s.1).drop 16 = s.1 := fun s => List.drop_left' (by rw [List.length_take]; omega)
  have e1 : ∀ s : Bytes 16, (midPut y s).1.take 32 = y.1.take 16 ++ s.1 := fun s => by
    show (y.1.take 16 ++ (s.1 ++ y.1.drop 32)).take 32 = _
    rw [← List.append_assoc, List.take_left' (hl s)]
  have e2 : ∀ s : Bytes 16, ((midPut y s).1.drop 16).take 16 = s.1 := fun s => congrArg Subtype.val (midOf_put y s)
  have hk : ∀ s : Bytes 16, Poly1305.keyS (y.1.take 16 ++ s.1) = leVal s.1 := fun s => by
    rw [Poly1305.keyS, hd, List.take_of_length_le (le_of_eq s.2)]
  have h := share_near (τ := fun s : Bytes 16 => (⟨polyTag (y.1.take 16 ++ s.1) aad c, (polyTag_ok (hl s) aad c).2⟩ : Bytes 16))
    (bad := fun s => ¬ leVal s.1 < 2 ^ 128 - 5) (fun s s' h h' e => Subtype.ext (List.append_cancel_left
      (polyTag_near (hl s) (hl s') ((h16 s).trans (h16 s').symm) (congrArg Subtype.val e) (by rw [hk]; exact not_not.mp h)
        (by rw [hk]; exact not_not.mp h')))) fun t => P t.1
  have hb : share (fun s : Bytes 16 => ¬ leVal s.1 < 2 ^ 128 - 5) ≤ 5 / 2 ^ 128 := by
    have h5 := share_le (Ω := Bytes 16) (P := fun s => ¬ leVal s.1 < 2 ^ 128 - 5) (c := 5) fun S hS => by
      have := Finset.card_le_card_of_injOn (s := S) (t := Finset.Ico (2 ^ 128 - 5) (2 ^ 128)) (fun s => leVal s.1)
        (fun s hs => Finset.mem_coe.mpr (Finset.mem_Ico.mpr ⟨not_lt.mp (hS s (Finset.mem_coe.mp hs)), by
          have := leVal_lt s.1
          rw [s.2, show (256 : Nat) ^ 16 = 2 ^ 128 by norm_num] at this
          exact this⟩))
        (fun s _ s' _ e => Subtype.ext (Universal.leVal_inj (s.2.trans s'.2.symm) e))
      rwa [Nat.card_Ico] at this
    rw [card_bytes] at h5
    refine h5.trans (le_of_eq ?_)
    norm_num
  simp only [e1, e2]
  exact h.trans (add_le_add_right hb _)

theorem chacha_sealing {L : Nat} (hL : L < 2 ^ 32) (F : Bytes 12 × U32 → Bytes 64) (a : Ask) (h : List Seen) (ha : a.Allowed L h) :
    blindAnswer chachaPoly F a = sealing 0 1 (fun _ => ()) (fun _ y aad c => polyTag (y.1.take 32) aad c) F a := by
  cases a with
  | enc iv aad m =>
    have hm := len_of_blocks ha.2 hL
    rw [blindAnswer, Aead.answer, chachaPoly_enc F iv aad (by omega)]
    rfl
  | dec iv aad c t => rfl
  | stop => rfl

/-- All other answers are known. -/
theorem chacha_sealed {D X O : Type} (g : D → X) (p : Prog (D ⊕ Ask) (X ⊕ Seen) O) {L q n : Nat} (hL : L < 2 ^ 32) (hc : p.Counts q n)
    (hp : ByRules id L p []) (acc : O → Prop) :
    share (fun F : Bytes 12 × U32 → Bytes 64 => acc (p.run (sideAnswer g (chachaPoly.answer F)))) ≤
      share (fun H : Bytes 12 × U32 → Bytes 64 => acc (p.run (sideAnswer g (randomSealed 16 0 1 H)))) + chachaSealed L n := by
  classical
  have h1 : share (fun F : Bytes 12 × U32 → Bytes 64 => Decrypted (p.answers (sideAnswer g (chachaPoly.answer F)))) ≤ chachaForgery L n := by
    have h1 := C106_chacha (strategyOf id (strip g p)) L n (proper_strategy id L _ hp) hL
    have h2 := share_of_card (by norm_num) h1
    refine (share_mono fun F hF => ?_).trans (h2.trans (le_of_eq ?_))
    · obtain ⟨iv, aad, c, t, m, hm⟩ := hF
      have hm := (answers_strip _ _ p).mp hm
      obtain ⟨k, hk, e⟩ := answers_play chachaPoly id F _ (strip_within _ hc) hm
      exact ⟨k, hk, iv, aad, c, t, m, e⟩
    · rw [chachaForgery]
      push_cast
      rfl
  have h2 : share (fun F : Bytes 12 × U32 → Bytes 64 => acc (p.run (sideAnswer g (chachaPoly.answer F)))) ≤
      share (fun F : Bytes 12 × U32 → Bytes 64 => acc (p.run (sideAnswer g
        (sealing 0 1 (fun _ => ()) (fun _ y aad c => polyTag (y.1.take 32) aad c) F)))) + chachaForgery L n := by
    refine (share_le_add fun F hF => ?_).trans (add_le_add_right h1 _)
    refine or_iff_not_imp_right.mpr fun hd => ?_
    rwa [run_blind chachaPoly (chachaPoly_total hL) g F hp hd, run_allowed g (chacha_sealing hL F) hp] at hF
  have h3 := share_sealed (n := 64) (d := 16) (t := 0) (c := 1) (K := []) (κ := fun _ => ()) g (by omega) (fun _ _ _ => rfl)
    (by positivity : (0 : ℚ) ≤ 5 / 2 ^ 128) (fun _ => share_polyTag) (fun _ _ _ _ _ => List.not_mem_nil)
    (sealPoints_nodup (t := 0) (c := 1) (by omega) (by omega) (by omega) hL) hp hc acc
  rw [chachaSealed]
  have : (n : ℚ) * (5 / 2 ^ 128) = 5 * n / 2 ^ 128 := by ring
  linarith

/-- **C132.**  Whoever asks the permutation `q` times, and for encryptions and decryptions by the rules, `n` times and with data of at
most `L` blocks, cannot tell the answers of ChaCha20-Poly1305 from random strings of the same length, with nothing decrypted. -/
theorem C132_chacha {O : Type} (p : ChaChaAttack Ask O) (L q n : Nat) (hL : L < 2 ^ 32) (hc : p.Counts q n) (hp : ByRules id L p [])
    (acc : O → Prop) :
    |share (fun ω : Equiv.Perm (Words 32 16) × Bytes 32 => acc (p.run (bothAnswer ω.1 (chachaPolyOf.answer ω)))) -
      share (fun ω : Equiv.Perm (Words 32 16) × (Bytes 12 × U32 → Bytes 64) => acc (p.run (bothAnswer ω.1 (randomSealed 16 0 1 ω.2))))| ≤
      blockBound q (n * L) + chachaSealed L n := by
  classical
  have h : ∀ acc : O → Prop, share (fun ω : Equiv.Perm (Words 32 16) × (Bytes 12 × U32 → Bytes 64) =>
        acc (p.run (bothAnswer ω.1 (chachaPoly.answer ω.2)))) ≤
      share (fun ω : Equiv.Perm (Words 32 16) × (Bytes 12 × U32 → Bytes 64) => acc (p.run (bothAnswer ω.1 (randomSealed 16 0 1 ω.2)))) +
        chachaSealed L n := fun acc => share_prod_add fun π => chacha_sealed (Dir.answer fun _ => π) p hL hc hp acc
  have a := abs_le.mp (aead_le id hL hc hp acc)
  have b1 := h acc
  have b2 := h fun o => ¬ acc o
  rw [share_sub, share_sub] at b2
  simp only [id] at a
  rw [abs_le]
  constructor <;> linarith [a.1, a.2]

/-- Encrypt two bytes, and send the ciphertext back with the first byte inverted and a tag of zeros; is it decrypted, or is the first
byte 0? -/
def sendBack {D X : Type} : Prog (D ⊕ Ask) (X ⊕ Seen) Bool :=
  .ask (.inr (.enc zeroIv [1] [0, 0])) fun
    | .inr (.enc _ _ [b, b'] _) => .ask (.inr (.dec zeroIv [1] [~~~ b, b'] ⟨List.replicate 16 0, List.length_replicate⟩)) fun
      | .inr (.dec _ _ _ _ (some _)) => .ret true
      | _ => .ret (b == 0)
    | _ => .ret false

theorem sendBack_counts {D X : Type} : (sendBack (D := D) (X := X)).Counts 0 2 := by
  refine ⟨1, rfl, fun s => ?_⟩
  beta_reduce
  split
  · refine ⟨0, rfl, fun s => ?_⟩
    beta_reduce
    split <;> trivial
  · trivial

theorem sendBack_rules {D X : Type} : ByRules id 3 (sendBack (D := D) (X := X)) [] := by
  refine ⟨⟨fun _ _ _ h => absurd h List.not_mem_nil, by decide⟩, fun s => ?_⟩
  beta_reduce
  split
  · rename_i iv aad b b' t e
    cases e
    refine ⟨⟨fun h => ?_, by simp [blocks]⟩, fun s => ?_⟩
    · have := (Seen.enc.injEq .. ▸ List.mem_singleton.mp h).2.2.1
      exact absurd (List.cons.inj this).1 ((by decide : ∀ b : U8, ~~~ b ≠ b) b)
    · beta_reduce
      split <;> trivial
  · trivial

example := C132_chacha sendBack 3 0 2 (by norm_num) sendBack_counts sendBack_rules (fun b => b = true)

/-- `2¹²⁰` questions to the permutation; `2²⁰` messages of `2¹⁶` bytes. -/
example : blockBound (2 ^ 120) (2 ^ 20 * 2 ^ 12) + chachaSealed (2 ^ 12) (2 ^ 20) < 1 / 2 ^ 49 := by
  rw [blockBound, chachaSealed, chachaForgery, show (2 : ℚ) ^ 256 = 2 ^ 128 * 2 ^ 128 by rw [← pow_add],
    show (2 : ℚ) ^ 513 = 2 ^ 171 * 2 ^ 171 * 2 ^ 171 by rw [← pow_add, ← pow_add]]
  norm_num

/-! ## AES-GCM -/

theorem gcm_sealing {L : Nat} (hL : L < 2 ^ 32) (F : Bytes 16 → Bytes 16) (a : Ask) (h : List Seen) (ha : a.Allowed L h) :
    blindAnswer aesGcm F a = sealing 1 2 (fun G => G (zeroIv, 0)) (fun z y aad c => (bxor (gh z aad c) y).1) (fun j => F (pointEquiv j)) a := by
  cases a with
  | enc iv aad m =>
    have hm := len_of_blocks ha.2 hL
    rw [blindAnswer, Aead.answer, aesGcm_enc F iv aad (by omega)]
    rfl
  | dec iv aad c t => rfl
  | stop => rfl

/-- From permutations to functions. -/
theorem share_of_switch {A B : Type} [Fintype A] [Fintype B] [Nonempty A] [Nonempty B] {P : A → Prop} {Q : B → Prop} [DecidablePred P]
    [DecidablePred Q] {N s : Nat} (hN : 0 < N) (h : (N - s) * (univ.filter P).card * Fintype.card B ≤ N * (univ.filter Q).card * Fintype.card A) :
    share P ≤ share Q + s / N := by
  have hN' : (0 : ℚ) < N := Nat.cast_pos.mpr hN
  have hA : (0 : ℚ) < Fintype.card A := Nat.cast_pos.mpr Fintype.card_pos
  have hB : (0 : ℚ) < Fintype.card B := Nat.cast_pos.mpr Fintype.card_pos
  have hle : share P ≤ 1 := by
    have h := share_sub P
    have h' := share_nonneg fun a => ¬ P a
    linarith
  have h0 := share_nonneg P
  have hQ := share_nonneg Q
  by_cases hs : s ≤ N
  · have e1 : ((univ.filter P).card : ℚ) = share P * Fintype.card A := by
      rw [share, div_mul_cancel₀ _ hA.ne']
      congr!
    have e2 : ((univ.filter Q).card : ℚ) = share Q * Fintype.card B := by
      rw [share, div_mul_cancel₀ _ hB.ne']
      congr!
    have h := (Nat.cast_le (α := ℚ)).mpr h
    push_cast [Nat.cast_sub hs] at h
    rw [e1, e2] at h
    have h' : ((N : ℚ) - s) * share P ≤ N * share Q :=
      le_of_mul_le_mul_right (le_trans (le_of_eq (by ring)) (h.trans (le_of_eq (by ring)))) (mul_pos hA hB)
    have hs' : (0 : ℚ) ≤ s := Nat.cast_nonneg s
    rw [← sub_le_iff_le_add', le_div_iff₀ hN']
    nlinarith
  · have : (1 : ℚ) ≤ s / N := by
      rw [le_div_iff₀ hN', one_mul]
      exact_mod_cast (by omega : N ≤ s)
    linarith

/-- All other answers are known. -/
theorem gcm_sealed {D X O : Type} (g : D → X) (p : Prog (D ⊕ Ask) (X ⊕ Seen) O) {L q n : Nat} (hL : L < 2 ^ 32) (hc : p.Counts q n)
    (hp : ByRules id L p []) (acc : O → Prop) :
    share (fun π : Equiv.Perm (Bytes 16) => acc (p.run (sideAnswer g (aesGcm.answer π)))) ≤
      share (fun H : Bytes 12 × U32 → Bytes 16 => acc (p.run (sideAnswer g (randomSealed 0 1 2 H)))) + gcmSealed L n := by
  classical
  have h0 : share (fun π : Equiv.Perm (Bytes 16) => acc (p.run (sideAnswer g (aesGcm.answer π)))) ≤
      share (fun F : Bytes 16 → Bytes 16 => acc (p.run (sideAnswer g (aesGcm.answer F)))) + ((n * L + 1) * (n * L) : Nat) / (2 ^ 129 : Nat) := by
    have h := share_of_switch (by norm_num) (C108_switch (strategyOf id (strip g p)) L n (proper_strategy id L _ hp) hL
      fun h => ∃ o, residual (strip g p) h = .ret o ∧ acc o)
    have e : ∀ F : Bytes 16 → Bytes 16, (∃ o, residual (strip g p) (aesGcm.play (strategyOf id (strip g p)) F n) = .ret o ∧ acc o) ↔
        acc (p.run (sideAnswer g (aesGcm.answer F))) := by
      intro F
      rw [residual_play aesGcm id F (strip g p) (strip_within _ hc), ← run_strip]
      exact ⟨fun ⟨o, h, ha⟩ => (Prog.ret.inj h) ▸ ha, fun h => ⟨_, rfl, h⟩⟩
    rwa [share_congr e, share_congr fun π : Equiv.Perm (Bytes 16) => e π] at h
  have h1 : share (fun F : Bytes 16 → Bytes 16 => Decrypted (p.answers (sideAnswer g (aesGcm.answer F)))) ≤ n * (L + 1) / 2 ^ 128 := by
    have h1 := C106_gcm (strategyOf id (strip g p)) L n (proper_strategy id L _ hp) hL
    have h2 := share_of_card (by norm_num) h1
    refine (share_mono fun F hF => ?_).trans (h2.trans (le_of_eq ?_))
    · obtain ⟨iv, aad, c, t, m, hm⟩ := hF
      have hm := (answers_strip _ _ p).mp hm
      obtain ⟨k, hk, e⟩ := answers_play aesGcm id F _ (strip_within _ hc) hm
      exact ⟨k, hk, iv, aad, c, t, m, e⟩
    · push_cast
      rfl
  have h2 : share (fun F : Bytes 16 → Bytes 16 => acc (p.run (sideAnswer g (aesGcm.answer F)))) ≤
      share (fun G : Bytes 12 × U32 → Bytes 16 => acc (p.run (sideAnswer g
        (sealing 1 2 (fun G => G (zeroIv, 0)) (fun z y aad c => (bxor (gh z aad c) y).1) G)))) + n * (L + 1) / 2 ^ 128 := by
    rw [← share_equiv (Equiv.arrowCongr pointEquiv.symm (Equiv.refl (Bytes 16)))]
    refine (share_le_add fun F hF => ?_).trans (add_le_add_right h1 _)
    refine or_iff_not_imp_right.mpr fun hd => ?_
    rw [run_blind aesGcm (aesGcm_total hL) g F hp hd, run_allowed g (gcm_sealing hL F) hp] at hF
    exact hF
  have htg : ∀ (z : Bytes 16) (aad c : List U8) (P : List U8 → Prop), share (fun y : Bytes 16 => P (bxor (gh z aad c) y).1) ≤
      share (fun y : Bytes 16 => P ((y.1.drop 0).take 16)) + 0 := by
    intro z aad c P
    rw [add_zero]
    refine le_of_eq (Eq.trans ?_ (share_equiv (Equiv.ofBijective (bxor (gh z aad c)) (Finite.injective_iff_bijective.mp
      fun _ _ h => bxor_left_inj h)) fun y : Bytes 16 => P ((y.1.drop 0).take 16)))
    refine share_congr fun y => iff_of_eq (congrArg P ?_)
    show _ = ((bxor (gh z aad c) y).1.drop 0).take 16
    rw [List.drop_zero, List.take_of_length_le (le_of_eq (bxor (gh z aad c) y).2)]
  have h3 := share_sealed (n := 16) (d := 0) (t := 1) (c := 2) (K := [(zeroIv, 0)]) (κ := fun G => G (zeroIv, 0)) g (by omega)
    (fun F F' e => e _ (List.mem_singleton_self _)) (le_refl 0) htg
    (fun a h ha j hj hz => by
      cases a with
      | enc iv aad m =>
        have hb : blocks aad m ≤ L := ha.2
        rw [blocks] at hb
        have hz : j.2 = 0 := by rw [List.mem_singleton.mp hz]
        rcases List.mem_cons.mp hj with rfl | hj
        · exact absurd hz (by decide : (1 : U32) ≠ 0)
        · obtain ⟨-, i, hi, e⟩ := mem_streamBlocks hj
          exact ctr_ne_zero (j := i) (by simp only at hi; omega) (e.symm.trans hz)
      | dec iv aad c t => exact absurd hj List.not_mem_nil
      | stop => exact absurd hj List.not_mem_nil)
    (sealPoints_nodup (t := 1) (c := 2) (by omega) (by omega) (by omega) hL) hp hc acc
  have e : gcmSealed L n = ((n * L + 1) * (n * L) : Nat) / (2 ^ 129 : Nat) + n * (L + 1) / 2 ^ 128 := by
    rw [gcmSealed]
    push_cast
    ring
  rw [e]
  linarith

/-- **C132.**  Whoever asks the block cipher `q` times, with any keys, and for encryptions and decryptions by the rules, `n` times and
with data of at most `L` blocks, cannot tell the answers of AES-GCM from random strings of the same length, with nothing decrypted. -/
theorem C132_gcm {k : Nat} {O : Type} (p : GcmAttack k Ask O) (L q n : Nat) (hL : L < 2 ^ 32) (hc : p.Counts q n) (hp : ByRules id L p [])
    (acc : O → Prop) :
    |share (fun ω : (Bytes k → Equiv.Perm (Bytes 16)) × Bytes k => acc (p.run (sideAnswer (Dir.answer ω.1) ((aesGcmOf k).answer ω)))) -
      share (fun ω : (Bytes k → Equiv.Perm (Bytes 16)) × (Bytes 12 × U32 → Bytes 16) =>
        acc (p.run (sideAnswer (Dir.answer ω.1) (randomSealed 0 1 2 ω.2))))| ≤ gcmSealed L n + q / 2 ^ (8 * k) := by
  classical
  have h : ∀ acc : O → Prop, share (fun ω : (Bytes k → Equiv.Perm (Bytes 16)) × Equiv.Perm (Bytes 16) =>
        acc (p.run (sideAnswer (Dir.answer ω.1) (aesGcm.answer ω.2)))) ≤
      share (fun ω : (Bytes k → Equiv.Perm (Bytes 16)) × (Bytes 12 × U32 → Bytes 16) =>
        acc (p.run (sideAnswer (Dir.answer ω.1) (randomSealed 0 1 2 ω.2)))) + gcmSealed L n :=
    fun acc => share_prod_add fun E => gcm_sealed (Dir.answer E) p hL hc hp acc
  have a := abs_le.mp (gcm_le id hc acc)
  have b1 := h acc
  have b2 := h fun o => ¬ acc o
  rw [share_sub, share_sub] at b2
  simp only [id] at a
  rw [abs_le]
  constructor <;> linarith [a.1, a.2]

example := C132_gcm (k := 16) sendBack 3 0 2 (by norm_num) sendBack_counts sendBack_rules (fun b => b = true)

/-- AES-256: `2²⁰⁰` questions to the block cipher; `2²⁰` messages of `2¹⁶` bytes. -/
example : gcmSealed (2 ^ 12) (2 ^ 20) + (2 ^ 200 : Nat) / 2 ^ (8 * 32) < 1 / 2 ^ 55 := by
  rw [gcmSealed]
  norm_num

/-! ## The code -/

/-- **C132.**  The rounds are one of these permutations, and AES is one of these block ciphers: with them, the attacked functions are
those for authenticated encryption. -/
theorem C132_code (alg : Hacspec.Aes.Variant) :
    (∃ π : Equiv.Perm (Words 32 16), (∀ s, Hacspec.ChaCha.rounds s.1 = .ok (π s).1) ∧
      ∀ (key : Bytes 32) (iv : Bytes 12) (aad m c : List U8) (t : Bytes 16),
        chachaPolyOf.enc (π, key) iv aad m = Hacspec.ChaChaPoly.encrypt key.1 iv.1 aad m ∧
        chachaPolyOf.dec (π, key) iv aad c t = Hacspec.ChaChaPoly.decrypt key.1 iv.1 aad c t.1) ∧
    ∃ E : Bytes (4 * Hacspec.Aes.nk alg) → Equiv.Perm (Bytes 16),
      (∀ key x, Hacspec.Aes.encryptBlock key.1 x.1 (Hacspec.Aes.nk alg) (Hacspec.Aes.nr alg) alg = .ok (E key x).1) ∧
      ∀ (key : Bytes (4 * Hacspec.Aes.nk alg)) (iv : Bytes 12) (aad m c : List U8) (t : Bytes 16),
        (aesGcmOf _).enc (E, key) iv aad m = Hacspec.AesGcm.encrypt key.1 iv.1 aad m alg ∧
        (aesGcmOf _).dec (E, key) iv aad c t = Hacspec.AesGcm.decrypt key.1 iv.1 aad c t.1 alg :=
  ⟨C116_code, C117_code alg⟩

end Hacspec.Props
