import Verif.Spec.Streams
import Verif.Lemmas.Ideal.Hide
import Verif.Lemmas.Ideal.Switch
import Verif.Lemmas.Ideal.Forging
import Verif.Lemmas.Ideal.Strategy

/-! # Encryption with fresh blocks of a random function -/

namespace Hacspec.Ideal

open Spec Finset

section

variable {D X Q A O J Y : Type}

/-- If no block is used twice, it does not matter what the questions with repeated blocks are answered. -/
theorem run_fresh (g : D → X) {f : Q → List J} {ev ev' : Q → A} (h : ∀ x, (f x).Nodup → ev x = ev' x) {p : Prog (D ⊕ Q) (X ⊕ A) O}
    {used : List J} (hp : FreshBlocks f p used) : p.run (sideAnswer g ev) = p.run (sideAnswer g ev') := by
  induction p generalizing used with
  | ret o => rfl
  | ask x k ih =>
    cases x with
    | inl d => exact ih _ (hp _)
    | inr x =>
      rw [Prog.run, Prog.run, sideAnswer, sideAnswer, h x hp.1]
      exact ih _ (hp.2.2 _)

/-- Blocks that were used do not matter any more. -/
theorem run_unused (g : D → X) {f : Q → List J} {ans : (J → Y) → Q → A}
    (hloc : ∀ x F F', (∀ j ∈ f x, F j = F' j) → ans F x = ans F' x) {p : Prog (D ⊕ Q) (X ⊕ A) O} {used : List J}
    (hp : FreshBlocks f p used) {F F' : J → Y} (h : ∀ j, j ∉ used → F j = F' j) :
    p.run (sideAnswer g (ans F)) = p.run (sideAnswer g (ans F')) := by
  induction p generalizing used with
  | ret o => rfl
  | ask x k ih =>
    cases x with
    | inl d => exact ih _ (hp _) h
    | inr x =>
      rw [Prog.run, Prog.run, sideAnswer, sideAnswer, hloc x F F' fun j hj => h j (hp.2.1 j hj)]
      exact ih _ (hp.2.2 _) fun j hj => h j fun hu => hj (List.mem_append_left _ hu)

/-- Changes of fresh blocks are an injection of the functions. -/
theorem exists_fresh (g : D → X) {f : Q → List J} {ans real : (J → Y) → Q → A} (T : Q → J → Y → Y) (hT : ∀ x j, Function.Injective (T x j))
    (hloc : ∀ x F F', (∀ j ∈ f x, F j = F' j) → ans F x = ans F' x)
    (hreal : ∀ x F, (f x).Nodup → real F x = ans (fun j => T x j (F j)) x) (p : Prog (D ⊕ Q) (X ⊕ A) O) (used : List J)
    (hp : FreshBlocks f p used) :
    ∃ Φ : (J → Y) → J → Y, Function.Injective Φ ∧ (∀ F j, j ∈ used → Φ F j = F j) ∧
      ∀ F, p.run (sideAnswer g (real F)) = p.run (sideAnswer g (ans (Φ F))) := by
  classical
  induction p generalizing used with
  | ret o => exact ⟨id, Function.injective_id, fun _ _ _ => rfl, fun _ => rfl⟩
  | ask x k ih =>
    cases x with
    | inl d =>
      exact ih _ used (hp _)
    | inr x =>
      obtain ⟨hn, hd, hk⟩ := hp
      choose Φ h1 h2 h3 using fun r => ih (.inr r) (used ++ f x) (hk _)
      let Ψ : (J → Y) → J → Y := fun F j => if j ∈ f x then T x j (F j) else Φ (real F x) F j
      have hsame : ∀ F, ans (Ψ F) x = real F x := fun F => by
        rw [hreal x F hn]
        exact hloc x _ _ fun j hj => if_pos hj
      refine ⟨Ψ, fun F F' e => ?_, fun F j hj => ?_, fun F => ?_⟩
      · have e1 : ∀ j ∈ f x, F j = F' j := fun j hj => by
          have := congrFun e j
          simp only [Ψ, if_pos hj] at this
          exact hT x j this
        have e2 : real F x = real F' x := by rw [← hsame, ← hsame, e]
        refine h1 (real F x) (funext fun j => ?_)
        by_cases hj : j ∈ f x
        · rw [h2 _ _ _ (List.mem_append_right _ hj), h2 _ _ _ (List.mem_append_right _ hj), e1 j hj]
        · have := congrFun e j
          simp only [Ψ, if_neg hj] at this
          rwa [← e2] at this
      · have hx : j ∉ f x := fun h => hd j h hj
        show (if j ∈ f x then T x j (F j) else Φ (real F x) F j) = F j
        rw [if_neg hx, h2 _ _ _ (List.mem_append_left _ hj)]
      · rw [Prog.run, Prog.run, sideAnswer, sideAnswer, hsame]
        refine (h3 (real F x) F).trans (run_unused g hloc (hk _) fun j hj => ?_)
        exact (if_neg fun h => hj (List.mem_append_right _ h)).symm

/-- With fresh blocks of a random function, changing the blocks makes no difference. -/
theorem share_fresh [Fintype J] [DecidableEq J] [Fintype Y] (g : D → X) {f : Q → List J} {ans real : (J → Y) → Q → A} (T : Q → J → Y → Y)
    (hT : ∀ x j, Function.Injective (T x j)) (hloc : ∀ x F F', (∀ j ∈ f x, F j = F' j) → ans F x = ans F' x)
    (hreal : ∀ x F, (f x).Nodup → real F x = ans (fun j => T x j (F j)) x) {p : Prog (D ⊕ Q) (X ⊕ A) O} (hp : FreshBlocks f p [])
    (acc : O → Prop) :
    share (fun F : J → Y => acc (p.run (sideAnswer g (real F)))) = share (fun F : J → Y => acc (p.run (sideAnswer g (ans F)))) := by
  obtain ⟨Φ, h1, -, h3⟩ := exists_fresh g T hT hloc hreal p [] hp
  simp only [h3]
  exact share_equiv (Equiv.ofBijective Φ (Finite.injective_iff_bijective.mp h1)) fun F => acc (p.run (sideAnswer g (ans F)))

variable [DecidableEq J] (f : Q → List J) (ans : (J → Y) → Q → A) (y₀ : Y) (a₀ : A)

/-- A program that asks for blocks and computes the answers itself. -/
def viaBlocks : Prog (D ⊕ Q) (X ⊕ A) O → Prog (D ⊕ J) (X ⊕ Y) O
  | .ret o => .ret o
  | .ask (.inl z) k => .ask (.inl z) fun r => viaBlocks (k (match r with | .inl x => .inl x | .inr _ => .inr a₀))
  | .ask (.inr x) k => askAll (f x) [] fun t => viaBlocks (k (.inr (ans (tableFn y₀ t) x)))

variable {f ans}

theorem run_viaBlocks (hloc : ∀ x F F', (∀ j ∈ f x, F j = F' j) → ans F x = ans F' x) (g : D → X) (F : J → Y)
    (p : Prog (D ⊕ Q) (X ⊕ A) O) : (viaBlocks f ans y₀ a₀ p).run (sideAnswer g F) = p.run (sideAnswer g (ans F)) := by
  induction p with
  | ret o => rfl
  | ask x k ih =>
    cases x with
    | inl z => exact ih _
    | inr x =>
      obtain ⟨t, h1, h2, h3⟩ := run_askAll g F (f x) [] (fun t => viaBlocks f ans y₀ a₀ (k (.inr (ans (tableFn y₀ t) x))))
        (fun u hu => absurd hu List.not_mem_nil)
      rw [hloc x (tableFn y₀ t) F fun j hj => tableFn_eq y₀ h2 (h3 j (.inl hj))] at h1
      exact h1.trans (ih _)

theorem viaBlocks_counts {p : Prog (D ⊕ Q) (X ⊕ A) O} {q s : Nat} (hp : p.Uses (fun x => (f x).length) q s) :
    (viaBlocks f ans y₀ a₀ p).Counts q s := by
  induction p generalizing q s with
  | ret o => trivial
  | ask x k ih =>
    cases x with
    | inl z =>
      obtain ⟨q, rfl, h⟩ := hp
      exact ⟨q, rfl, fun r => ih _ (h _)⟩
    | inr x =>
      obtain ⟨s, rfl, h⟩ := hp
      exact askAll_counts _ le_rfl _ fun t => ih _ (h _)

end

/-! ## A random permutation and a random function -/

section

variable {D X Y O : Type} [Fintype X] [DecidableEq X]

/-- The second kind of questions. -/
def asked₂ (g : D → Y) (F : X → X) : Prog (D ⊕ X) (Y ⊕ X) O → Finset X
  | .ret _ => ∅
  | .ask (.inl d) k => asked₂ g F (k (.inl (g d)))
  | .ask (.inr x) k => insert x (asked₂ g F (k (.inr (F x))))

theorem card_asked₂ (g : D → Y) (F : X → X) {p : Prog (D ⊕ X) (Y ⊕ X) O} {q s : Nat} (hp : p.Counts q s) : (asked₂ g F p).card ≤ s := by
  induction p generalizing q s with
  | ret o => exact Nat.zero_le _
  | ask x k ih =>
    cases x with
    | inl z =>
      obtain ⟨q, rfl, h⟩ := hp
      exact ih _ (h _)
    | inr x =>
      obtain ⟨s, rfl, h⟩ := hp
      exact (Finset.card_insert_le _ _).trans (Nat.succ_le_succ (ih _ (h _)))

theorem asked₂_same (g : D → Y) {F F' : X → X} (p : Prog (D ⊕ X) (Y ⊕ X) O) (h : ∀ x ∈ asked₂ g F p, F' x = F x) :
    asked₂ g F' p = asked₂ g F p ∧ p.run (sideAnswer g F') = p.run (sideAnswer g F) := by
  induction p with
  | ret o => exact ⟨rfl, rfl⟩
  | ask x k ih =>
    cases x with
    | inl d => exact ih _ h
    | inr x =>
      rw [asked₂] at h
      have e := h x (Finset.mem_insert_self ..)
      have h' := ih (.inr (F x)) fun y hy => h y (Finset.mem_insert_of_mem hy)
      rw [asked₂, asked₂, Prog.run, Prog.run, sideAnswer, sideAnswer, e]
      exact ⟨by rw [h'.1], h'.2⟩

/-- Whoever asks for `s` values cannot tell a random permutation from a random function. -/
theorem share_switch (g : D → Y) {p : Prog (D ⊕ X) (Y ⊕ X) O} {q s : Nat} (hp : p.Counts q s) [Nonempty X] (acc : O → Prop) :
    share (fun π : Equiv.Perm X => acc (p.run (sideAnswer g π))) ≤
      share (fun F : X → X => acc (p.run (sideAnswer g F))) + s * (s - 1) / (2 * Fintype.card X) := by
  classical
  have hN : (0 : ℚ) < Fintype.card X := Nat.cast_pos.mpr Fintype.card_pos
  have hle : share (fun π : Equiv.Perm X => acc (p.run (sideAnswer g π))) ≤ 1 := by
    have h := share_sub fun π : Equiv.Perm X => acc (p.run (sideAnswer g π))
    have h' := share_nonneg fun π : Equiv.Perm X => ¬ acc (p.run (sideAnswer g π))
    linarith
  have h0 := share_nonneg fun F : X → X => acc (p.run (sideAnswer g F))
  have h0' := share_nonneg fun π : Equiv.Perm X => acc (p.run (sideAnswer g π))
  have hs1 : (0 : ℚ) ≤ s * (s - 1) := by
    rcases Nat.eq_zero_or_pos s with rfl | h
    · simp
    · have : (1 : ℚ) ≤ s := by exact_mod_cast h
      exact mul_nonneg (by linarith) (by linarith)
  by_cases hs : s * (s - 1) ≤ 2 * Fintype.card X ∧ s ≤ Fintype.card X
  · have h := card_switch' (fun F => asked₂ g F p) (fun F => acc (p.run (sideAnswer g F)))
      (fun F F' e => by
        obtain ⟨h1, h2⟩ := asked₂_same g p e
        exact ⟨h1, fun h => by rw [h2]; exact h⟩) (fun F => card_asked₂ g F hp) hs.2
    have h := (Nat.cast_le (α := ℚ)).mpr h
    rw [Nat.cast_mul, Nat.cast_mul, Nat.cast_sub hs.1, Nat.cast_mul, Nat.cast_mul, Nat.cast_mul, Nat.cast_mul, Nat.cast_mul] at h
    have hc : ((s - 1 : Nat) : ℚ) * s = (s - 1) * s := by
      rcases Nat.eq_zero_or_pos s with rfl | h
      · simp
      · rw [Nat.cast_sub h, Nat.cast_one]
    have hF : (0 : ℚ) < Fintype.card (X → X) := Nat.cast_pos.mpr Fintype.card_pos
    have hP : (0 : ℚ) < Fintype.card (Equiv.Perm X) := Nat.cast_pos.mpr Fintype.card_pos
    have e1 : ((univ.filter fun π : Equiv.Perm X => acc (p.run (sideAnswer g π))).card : ℚ) =
        share (fun π : Equiv.Perm X => acc (p.run (sideAnswer g π))) * Fintype.card (Equiv.Perm X) := by
      rw [share, div_mul_cancel₀ _ hP.ne']
    have e2 : ((univ.filter fun F : X → X => acc (p.run (sideAnswer g F))).card : ℚ) =
        share (fun F : X → X => acc (p.run (sideAnswer g F))) * Fintype.card (X → X) := by
      rw [share, div_mul_cancel₀ _ hF.ne']
    rw [e1, e2] at h
    generalize share (fun π : Equiv.Perm X => acc (p.run (sideAnswer g π))) = a at *
    generalize share (fun F : X → X => acc (p.run (sideAnswer g F))) = b at *
    have h' : (2 * (Fintype.card X : ℚ) - s * (s - 1)) * a ≤ 2 * Fintype.card X * b := by
      have hpos := mul_pos hP hF
      refine le_of_mul_le_mul_right ?_ hpos
      refine le_trans (le_of_eq ?_) (h.trans (le_of_eq ?_))
      · push_cast
        rw [mul_comm (s : ℚ) ((s - 1 : Nat) : ℚ), hc]
        ring
      · push_cast
        ring
    rw [← sub_le_iff_le_add', le_div_iff₀ (by linarith)]
    nlinarith
  · have : (1 : ℚ) ≤ s * (s - 1) / (2 * Fintype.card X) := by
      rw [le_div_iff₀ (by linarith), one_mul]
      rw [not_and_or] at hs
      have h2 : 2 * Fintype.card X ≤ s * (s - 1) := by
        have hX : 0 < Fintype.card X := Fintype.card_pos
        rcases hs with h | h
        · omega
        · by_cases h1 : Fintype.card X = 1
          · have : 2 ≤ s := by omega
            rw [h1]
            exact Nat.mul_le_mul this (by omega : 1 ≤ s - 1)
          · exact (Nat.mul_le_mul (by omega : 2 ≤ s) (by omega : Fintype.card X ≤ s - 1))
      have h3 := (Nat.cast_le (α := ℚ)).mpr h2
      push_cast at h3
      rcases Nat.eq_zero_or_pos s with rfl | h
      · simp at h3
        exact absurd h3 (by linarith)
      · rwa [Nat.cast_sub h, Nat.cast_one] at h3
    linarith

end

/-! ## Streams -/

theorem xor_chunks {n : Nat} {g : Nat → List U8} (hg : ∀ j, (g j).length = n) (m : List U8) (K : Nat) (hK : n * K < m.length + n) :
    (List.range K).flatMap (fun j => Spec.xor (Spec.block n m j) (g j)) = Spec.xor (m.take (n * K)) ((List.range K).flatMap g) := by
  induction K with
  | zero => simp [Spec.xor]
  | succ K ih =>
    rw [Nat.mul_succ] at hK
    have hlen : ((List.range K).flatMap g).length = n * K := by
      rw [List.length_flatMap]
      simp [hg, Nat.mul_comm]
    rw [List.range_succ, List.flatMap_append, List.flatMap_append, ih (by omega), Nat.mul_succ, List.take_add]
    simp only [Spec.xor]
    rw [List.zipWith_append (by rw [List.length_take, hlen]; omega)]
    simp [Spec.block]

theorem stream_eq {n : Nat} (hn : 0 < n) {g : Nat → List U8} (hg : ∀ j, (g j).length = n) (m : List U8) :
    stream n g m = Spec.xor m ((List.range ((m.length + n - 1) / n)).flatMap g) := by
  have h1 := Nat.div_mul_le_self (m.length + n - 1) n
  have h2 := Nat.lt_mul_div_succ (m.length + n - 1) hn
  rw [Nat.mul_succ] at h2
  rw [Nat.mul_comm] at h1
  rw [stream, xor_chunks hg m _ (by omega), List.take_of_length_le (by omega)]

theorem xor_zeros (k : Nat) (b : List U8) : Spec.xor (List.replicate k 0) b = b.take k := by
  induction k generalizing b with
  | zero => simp [Spec.xor]
  | succ k ih =>
    cases b with
    | nil => simp [Spec.xor]
    | cons x b =>
      have := ih b
      simp only [Spec.xor] at this ⊢
      rw [List.replicate_succ, List.zipWith_cons_cons, List.take_succ_cons, this, show (0 : U8) ^^^ x = x from BitVec.zero_xor]

/-- The message with the blocks. -/
def streamOf {n : Nat} (H : Bytes 12 × U32 → Bytes n) (x : StreamAsk) : List U8 :=
  stream n (fun j => (H (x.1, x.2.1 + BitVec.ofNat 32 j)).1) x.2.2

theorem randomStream_eq {n : Nat} (hn : 0 < n) (H : Bytes 12 × U32 → Bytes n) (x : StreamAsk) :
    randomStream H x = streamOf H (x.1, x.2.1, List.replicate x.2.2.length 0) := by
  rw [streamOf, stream_eq hn (fun j => (H _).2), xor_zeros, randomStream, StreamAsk.blocks, List.flatMap_map, List.length_replicate]

theorem randomStream_local {n : Nat} (x : StreamAsk) (F F' : Bytes 12 × U32 → Bytes n) (h : ∀ j ∈ x.blocks n, F j = F' j) :
    randomStream F x = randomStream F' x := by
  rw [randomStream, randomStream, List.flatMap_congr fun j hj => by rw [h j hj]]

theorem streamOf_local {n : Nat} (x : StreamAsk) (F F' : Bytes 12 × U32 → Bytes n) (h : ∀ j ∈ x.blocks n, F j = F' j) :
    streamOf F x = streamOf F' x :=
  stream_congr fun j hj => by rw [h _ (List.mem_map.mpr ⟨j, List.mem_range.mpr hj, rfl⟩)]

/-- Different blocks are few. -/
theorem blocks_nodup {n : Nat} {x : StreamAsk} (h : (x.blocks n).Nodup) : (x.2.2.length + n - 1) / n ≤ 2 ^ 32 := by
  classical
  by_contra hc
  have h1 := (List.nodup_map_iff_inj_on List.nodup_range).mp h 0 (List.mem_range.mpr (by omega)) (2 ^ 32) (List.mem_range.mpr (by omega))
    (by
      refine Prod.ext rfl ?_
      show x.2.1 + BitVec.ofNat 32 0 = x.2.1 + BitVec.ofNat 32 (2 ^ 32)
      rw [show BitVec.ofNat 32 (2 ^ 32) = BitVec.ofNat 32 0 from rfl])
  omega

theorem streamOf_eq {n : Nat} (hn : 0 < n) (H : Bytes 12 × U32 → Bytes n) (x : StreamAsk) (h : (x.blocks n).Nodup) :
    streamOf H x = randomStream (fun j => bxor (H j) (dl n x.2.2 (List.replicate x.2.2.length 0) (j.2 - x.2.1).toNat)) x := by
  have hb := blocks_nodup h
  rw [randomStream_eq hn, streamOf, streamOf, stream, stream, List.length_replicate]
  refine List.flatMap_congr fun j hj => ?_
  have hj := List.mem_range.mp hj
  have e : (x.2.1 + BitVec.ofNat 32 j - x.2.1).toNat = j := by
    rw [BitVec.add_comm, BitVec.add_sub_cancel, BitVec.toNat_ofNat]
    exact Nat.mod_eq_of_lt (by omega)
  show _ = Spec.xor (Spec.block n (List.replicate x.2.2.length 0) j) (bxor (H (x.1, x.2.1 + BitVec.ofNat 32 j))
    (dl n x.2.2 (List.replicate x.2.2.length 0) (x.2.1 + BitVec.ofNat 32 j - x.2.1).toNat)).1
  rw [e, xor_dl (by rw [List.length_replicate])]

end Hacspec.Ideal
