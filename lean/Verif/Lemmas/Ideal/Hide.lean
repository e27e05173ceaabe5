import Verif.Lemmas.Ideal.Gcm

/-! # Ciphertexts of messages of the same length, with a random block function -/

namespace Hacspec.Ideal

open Spec Finset

/-- The difference of block `j` of two messages, filled up with zeros. -/
def dl (n : Nat) (m m' : List U8) (j : Nat) : Bytes n :=
  ⟨(List.range n).map fun i => m.getD (n * j + i) 0 ^^^ m'.getD (n * j + i) 0, by simp⟩

theorem dl_comm (n : Nat) (m m' : List U8) (j : Nat) : dl n m m' j = dl n m' m j := by
  simp only [dl, BitVec.xor_comm]

theorem xor_dl {n : Nat} {m m' : List U8} (h : m.length = m'.length) (j : Nat) (b : Bytes n) :
    Spec.xor (Spec.block n m' j) (bxor b (dl n m m' j)).1 = Spec.xor (Spec.block n m j) b.1 := by
  apply List.ext_getElem
  · simp [Spec.xor, Spec.block, bxor, dl, b.2, h]
  · intro i h1 h2
    have hb := b.2
    simp only [Spec.xor, Spec.block, List.length_zipWith, List.length_take, List.length_drop] at h1 h2
    have e : ∀ x y z : U8, y ^^^ (z ^^^ (x ^^^ y)) = x ^^^ z := by
      intro x y z
      rw [BitVec.xor_comm x y, ← BitVec.xor_assoc z, BitVec.xor_comm z y, BitVec.xor_assoc y z x, ← BitVec.xor_assoc y y,
        BitVec.xor_self, BitVec.zero_xor, BitVec.xor_comm]
    simp only [Spec.xor, Spec.block, bxor, dl, List.getElem_zipWith, List.getElem_take, List.getElem_drop, List.getElem_map,
      List.getElem_range]
    rw [List.getD_eq_getElem?_getD, List.getD_eq_getElem?_getD, List.getElem?_eq_getElem (show n * j + i < m.length by omega),
      List.getElem?_eq_getElem (show n * j + i < m'.length by omega), Option.getD_some, Option.getD_some, e]

variable {X : Type} {n : Nat}

/-- The ciphertext with the key stream at the points `pt iv (c0 + j)`. -/
def ctAt (pt : Bytes 12 → U32 → X) (c0 : Nat) (F : X → Bytes n) (iv : Bytes 12) (m : List U8) : List U8 :=
  stream n (fun j => (F (pt iv (BitVec.ofNat 32 c0 + BitVec.ofNat 32 j))).1) m

/-- What both constructions have in common. -/
structure StreamAead (S : Aead (X → Bytes n)) (pt : Bytes 12 → U32 → X) (c0 N L : Nat)
    (tag : (X → Bytes n) → Bytes 12 → List U8 → List U8 → List U8) : Prop where
  inj : ∀ iv iv' c c', pt iv c = pt iv' c' → iv = iv' ∧ c = c'
  room : c0 + N ≤ 2 ^ 32
  enough : ∀ aad m, blocks aad m ≤ L → (m.length + n - 1) / n ≤ N
  enc : ∀ F iv aad m, blocks aad m ≤ L → S.enc F iv aad m = .ok (ctAt pt c0 F iv m, tag F iv aad (ctAt pt c0 F iv m))
  out : ∀ F F', (∀ x, (∀ iv j, j < N → x ≠ pt iv (BitVec.ofNat 32 c0 + BitVec.ofNat 32 j)) → F x = F' x) → tag F = tag F'
  dec : ∀ F iv aad c t, blocks aad c ≤ L → ∃ r, S.dec F iv aad c t = .ok r

theorem ctr_inj {c0 N j j' : Nat} (h : c0 + N ≤ 2 ^ 32) (hj : j < N) (hj' : j' < N)
    (e : BitVec.ofNat 32 c0 + BitVec.ofNat 32 j = BitVec.ofNat 32 c0 + BitVec.ofNat 32 j') : j = j' := by
  have := congrArg BitVec.toNat e
  simp only [BitVec.toNat_add, BitVec.toNat_ofNat] at this
  omega

section

variable {S : Aead (X → Bytes n)} {pt : Bytes 12 → U32 → X} {c0 N L : Nat}
  {tag : (X → Bytes n) → Bytes 12 → List U8 → List U8 → List U8} {A A' : List Seen → Ask}

/-- The block at `x` hides `p`: the difference of two messages asked for. -/
def Hides (A A' : List Seen → Ask) (pt : Bytes 12 → U32 → X) (c0 N n : Nat) (τ : List Seen) (x : X) (p : Bytes n) : Prop :=
  ∃ i, i < τ.length ∧ ∃ iv aad m m' j, A (τ.take i) = .enc iv aad m ∧ A' (τ.take i) = .enc iv aad m' ∧ j < N ∧
    x = pt iv (BitVec.ofNat 32 c0 + BitVec.ofNat 32 j) ∧ p = dl n m m' j

open Classical in
/-- The function changed by the differences. -/
noncomputable def shift (A A' : List Seen → Ask) (pt : Bytes 12 → U32 → X) (c0 N : Nat) (τ : List Seen) (F : X → Bytes n) (x : X) :
    Bytes n :=
  if h : ∃ p, Hides A A' pt c0 N n τ x p then bxor (F x) h.choose else F x

theorem shift_shift (τ : List Seen) (F : X → Bytes n) : shift A A' pt c0 N τ (shift A A' pt c0 N τ F) = F := by
  funext x
  by_cases h : ∃ p, Hides A A' pt c0 N n τ x p
  · rw [shift, dif_pos h, shift, dif_pos h, bxor_assoc, bxor_cancel']
  · rw [shift, dif_neg h, shift, dif_neg h]

theorem shift_out (τ : List Seen) (F : X → Bytes n) (x : X)
    (hx : ∀ iv j, j < N → x ≠ pt iv (BitVec.ofNat 32 c0 + BitVec.ofNat 32 j)) : shift A A' pt c0 N τ F x = F x := by
  rw [shift, dif_neg]
  rintro ⟨p, i, -, iv, aad, m, m', j, -, -, hj, e, -⟩
  exact hx iv j hj e

variable (hS : StreamAead S pt c0 N L tag)
include hS

theorem blindAnswer_stream (F : X → Bytes n) (iv : Bytes 12) (aad : List U8) {m : List U8} (hm : blocks aad m ≤ L) :
    blindAnswer S F (.enc iv aad m) = .enc iv aad (ctAt pt c0 F iv m) (tag F iv aad (ctAt pt c0 F iv m)) := by
  rw [blindAnswer, Aead.answer, hS.enc F iv aad m hm]

variable (hA : Proper A L)
include hA

/-- Questions with the same nonce are the same question; `B` answers like `A`. -/
theorem ask_unique {B : List Seen → Ask} (hB : Proper B L) (hAB : ∀ h, (A h).Similar (B h)) {F : X → Bytes n} {i i' : Nat}
    {iv : Bytes 12} {aad m aad' m' : List U8}
    (h : A (blind S B F i) = .enc iv aad m) (h' : A (blind S B F i') = .enc iv aad' m') : i = i' := by
  have key : ∀ i i' aad m aad' m', i < i' → A (blind S B F i) = .enc iv aad m → A (blind S B F i') ≠ .enc iv aad' m' := by
    intro i i' aad m aad' m' hlt h h'
    have hs := hAB (blind S B F i)
    rw [h] at hs
    cases hb : B (blind S B F i) with
    | dec iv aad c t => rw [hb] at hs; exact hs
    | stop => rw [hb] at hs; exact hs
    | enc iv2 aad2 m2 =>
      rw [hb] at hs
      obtain ⟨rfl, rfl, -⟩ := hs
      have := mem_blind S B (F := F) hlt
      rw [hb, blindAnswer_stream hS _ _ _ (hB.encLength _ _ _ _ hb)] at this
      exact hA.once _ _ _ _ h' _ _ _ this
  rcases Nat.lt_trichotomy i i' with hlt | he | hgt
  · exact absurd h' (key _ _ _ _ _ _ hlt h)
  · exact he
  · exact absurd h (key _ _ _ _ _ _ hgt h')

theorem shift_at {B : List Seen → Ask} (hB : Proper B L) (hAB : ∀ h, (A h).Similar (B h)) {F : X → Bytes n} {k i : Nat} (hi : i < k)
    {iv : Bytes 12} {aad m m' : List U8} (h : A (blind S B F i) = .enc iv aad m) (h' : A' (blind S B F i) = .enc iv aad m')
    {j : Nat} (hj : j < N) :
    shift A A' pt c0 N (blind S B F k) F (pt iv (BitVec.ofNat 32 c0 + BitVec.ofNat 32 j)) =
      bxor (F (pt iv (BitVec.ofNat 32 c0 + BitVec.ofNat 32 j))) (dl n m m' j) := by
  have hx : ∃ p, Hides A A' pt c0 N n (blind S B F k) (pt iv (BitVec.ofNat 32 c0 + BitVec.ofNat 32 j)) p := by
    refine ⟨_, i, by rw [length_blind]; exact hi, iv, aad, m, m', j, ?_, ?_, hj, rfl, rfl⟩
    · rw [take_blind S (by omega)]; exact h
    · rw [take_blind S (by omega)]; exact h'
  rw [shift, dif_pos hx]
  congr 1
  obtain ⟨i2, hi2, iv2, aad2, m2, m2', j2, e1, e2, hj2, e3, e4⟩ := hx.choose_spec
  rw [length_blind] at hi2
  rw [take_blind S (by omega)] at e1 e2
  obtain ⟨rfl, e5⟩ := hS.inj _ _ _ _ e3
  obtain rfl := ctr_inj hS.room hj hj2 e5
  obtain rfl := ask_unique hS hA hB hAB h e1
  rw [h] at e1
  rw [h'] at e2
  simp only [Ask.enc.injEq] at e1 e2
  obtain ⟨-, -, rfl⟩ := e1
  obtain ⟨-, -, rfl⟩ := e2
  exact e4

omit hA in
theorem ctAt_eq {F F' : X → Bytes n} {iv : Bytes 12} {aad m m' : List U8} (hm : blocks aad m ≤ L) (hl : m.length = m'.length)
    (h : ∀ j, j < N → F' (pt iv (BitVec.ofNat 32 c0 + BitVec.ofNat 32 j)) =
      bxor (F (pt iv (BitVec.ofNat 32 c0 + BitVec.ofNat 32 j))) (dl n m m' j)) : ctAt pt c0 F' iv m' = ctAt pt c0 F iv m := by
  have hN := hS.enough aad m hm
  rw [ctAt, ctAt, stream, stream, ← hl]
  refine List.flatMap_congr fun j hj => ?_
  have hj := List.mem_range.mp hj
  rw [h j (by omega), xor_dl hl]

variable (hA' : Proper A' L) (hs : ∀ h, (A h).Similar (A' h))
include hA' hs

/-- With the function changed, the other question gets the same answer. -/
theorem blind_shift (F : X → Bytes n) (k : Nat) :
    blind S A' (shift A A' pt c0 N (blind S A F k) F) k = blind S A F k ∧
    blind S A (shift A A' pt c0 N (blind S A' F k) F) k = blind S A' F k := by
  have hrefl : ∀ h, (A h).Similar (A h) := by
    intro h
    cases A h <;> simp [Ask.Similar]
  constructor
  · have key : ∀ i, i ≤ k → blind S A' (shift A A' pt c0 N (blind S A F k) F) i = blind S A F i := by
      intro i
      induction i with
      | zero => exact fun _ => rfl
      | succ i ih =>
        intro hi
        rw [blind, ih (by omega)]
        show _ = blind S A F i ++ [blindAnswer S F (A (blind S A F i))]
        congr 2
        have hq := hs (blind S A F i)
        cases ha : A (blind S A F i) with
        | stop =>
          rw [ha] at hq
          cases ha' : A' (blind S A F i) with
          | enc => rw [ha'] at hq; exact absurd hq id
          | dec => rw [ha'] at hq; exact absurd hq id
          | stop => rfl
        | dec iv aad c t =>
          rw [ha] at hq
          cases ha' : A' (blind S A F i) with
          | enc => rw [ha'] at hq; exact absurd hq id
          | stop => rw [ha'] at hq; exact absurd hq id
          | dec iv' aad' c' t' =>
            rw [ha'] at hq
            obtain ⟨rfl, rfl, rfl, rfl⟩ := hq
            rfl
        | enc iv aad m =>
          rw [ha] at hq
          cases ha' : A' (blind S A F i) with
          | dec => rw [ha'] at hq; exact absurd hq id
          | stop => rw [ha'] at hq; exact absurd hq id
          | enc iv' aad' m' =>
            rw [ha'] at hq
            obtain ⟨rfl, rfl, hl⟩ := hq
            have hm := hA.encLength _ _ _ _ ha
            have hm' := hA'.encLength _ _ _ _ ha'
            rw [blindAnswer_stream hS _ _ _ hm, blindAnswer_stream hS _ _ _ hm',
              ctAt_eq hS hm hl fun j hj => shift_at hS hA hA hrefl (show i < k by omega) ha ha' hj,
              hS.out _ F fun x hx => shift_out _ _ x hx]
    exact key k (le_refl k)
  · have key : ∀ i, i ≤ k → blind S A (shift A A' pt c0 N (blind S A' F k) F) i = blind S A' F i := by
      intro i
      induction i with
      | zero => exact fun _ => rfl
      | succ i ih =>
        intro hi
        rw [blind, ih (by omega)]
        show _ = blind S A' F i ++ [blindAnswer S F (A' (blind S A' F i))]
        congr 2
        have hq := hs (blind S A' F i)
        cases ha : A (blind S A' F i) with
        | stop =>
          rw [ha] at hq
          cases ha' : A' (blind S A' F i) with
          | enc => rw [ha'] at hq; exact absurd hq id
          | dec => rw [ha'] at hq; exact absurd hq id
          | stop => rfl
        | dec iv aad c t =>
          rw [ha] at hq
          cases ha' : A' (blind S A' F i) with
          | enc => rw [ha'] at hq; exact absurd hq id
          | stop => rw [ha'] at hq; exact absurd hq id
          | dec iv' aad' c' t' =>
            rw [ha'] at hq
            obtain ⟨rfl, rfl, rfl, rfl⟩ := hq
            rfl
        | enc iv aad m =>
          rw [ha] at hq
          cases ha' : A' (blind S A' F i) with
          | dec => rw [ha'] at hq; exact absurd hq id
          | stop => rw [ha'] at hq; exact absurd hq id
          | enc iv' aad' m' =>
            rw [ha'] at hq
            obtain ⟨rfl, rfl, hl⟩ := hq
            have hm := hA.encLength _ _ _ _ ha
            have hm' := hA'.encLength _ _ _ _ ha'
            rw [blindAnswer_stream hS _ _ _ hm, blindAnswer_stream hS _ _ _ hm',
              ctAt_eq hS hm' hl.symm fun j hj => by
                rw [shift_at hS hA hA' hs (show i < k by omega) ha ha' hj, dl_comm],
              hS.out _ F fun x hx => shift_out _ _ x hx]
    exact key k (le_refl k)

variable [Fintype X] [DecidableEq X]

open Classical in
/-- Each history is seen with the same number of functions. -/
theorem card_blind (k : Nat) (D : List Seen → Prop) :
    (univ.filter fun F : X → Bytes n => D (blind S A F k)).card = (univ.filter fun F : X → Bytes n => D (blind S A' F k)).card := by
  refine Finset.card_nbij' (fun F => shift A A' pt c0 N (blind S A F k) F) (fun F => shift A A' pt c0 N (blind S A' F k) F) ?_ ?_ ?_ ?_
  · intro F hF
    have hF := (Finset.mem_filter.mp (Finset.mem_coe.mp hF)).2
    refine Finset.mem_coe.mpr (Finset.mem_filter.mpr ⟨Finset.mem_univ _, ?_⟩)
    rw [(blind_shift hS hA hA' hs F k).1]
    exact hF
  · intro F hF
    have hF := (Finset.mem_filter.mp (Finset.mem_coe.mp hF)).2
    refine Finset.mem_coe.mpr (Finset.mem_filter.mpr ⟨Finset.mem_univ _, ?_⟩)
    rw [(blind_shift hS hA hA' hs F k).2]
    exact hF
  · intro F _
    show shift A A' pt c0 N (blind S A' (shift A A' pt c0 N (blind S A F k) F) k) (shift A A' pt c0 N (blind S A F k) F) = F
    rw [(blind_shift hS hA hA' hs F k).1, shift_shift]
  · intro F _
    show shift A A' pt c0 N (blind S A (shift A A' pt c0 N (blind S A' F k) F) k) (shift A A' pt c0 N (blind S A' F k) F) = F
    rw [(blind_shift hS hA hA' hs F k).2, shift_shift]

open Classical in
/-- Whatever is concluded from the answers, with decryption: the difference is at most the number of forgeries. -/
theorem card_play (q : Nat) (D : List Seen → Prop) :
    (univ.filter fun F : X → Bytes n => D (S.play A F q)).card ≤ (univ.filter fun F : X → Bytes n => D (S.play A' F q)).card +
      ((univ.filter (S.Forges A q)).card + (univ.filter (S.Forges A' q)).card) := by
  have h1 : (univ.filter fun F : X → Bytes n => D (S.play A F q)).card ≤
      (univ.filter fun F : X → Bytes n => D (blind S A F q)).card + (univ.filter (S.Forges A q)).card := by
    refine (Finset.card_le_card ?_).trans (Finset.card_union_le _ _)
    intro F hF
    have hF := (Finset.mem_filter.mp hF).2
    rw [Finset.mem_union, Finset.mem_filter, Finset.mem_filter]
    by_cases hf : S.Forges A q F
    · exact .inr ⟨Finset.mem_univ _, hf⟩
    · refine .inl ⟨Finset.mem_univ _, ?_⟩
      rw [← play_blind S hA hS.dec hf]
      exact hF
  have h2 : (univ.filter fun F : X → Bytes n => D (blind S A' F q)).card ≤
      (univ.filter fun F : X → Bytes n => D (S.play A' F q)).card + (univ.filter (S.Forges A' q)).card := by
    refine (Finset.card_le_card ?_).trans (Finset.card_union_le _ _)
    intro F hF
    have hF := (Finset.mem_filter.mp hF).2
    rw [Finset.mem_union, Finset.mem_filter, Finset.mem_filter]
    by_cases hf : S.Forges A' q F
    · exact .inr ⟨Finset.mem_univ _, hf⟩
    · refine .inl ⟨Finset.mem_univ _, ?_⟩
      rw [play_blind S hA' hS.dec hf]
      exact hF
  have h3 := card_blind hS hA hA' hs q D
  omega

end

end Hacspec.Ideal
