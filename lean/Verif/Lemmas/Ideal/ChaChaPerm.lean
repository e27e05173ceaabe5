import Verif.Lemmas.Ideal.Feed
import Verif.Lemmas.Ideal.Hmac
import Verif.Lemmas.Ideal.SpongeGame
import Verif.Lemmas.ChaCha
import Verif.Model.IdealChaCha

/-! # ChaCha20 with a permutation in place of the rounds -/

namespace Hacspec.Ideal

open Spec Finset Hacspec.Seq

theorem words32le_bytesLe32 (l : List U32) : words32le (l.flatMap bytesLe32) = l := by
  induction l with
  | nil => rfl
  | cons x l ih =>
    rw [List.flatMap_cons, bytesLe32, List.cons_append, List.cons_append, List.cons_append, List.cons_append, List.nil_append, words32le, ih]
    refine congrArg (· :: l) ?_
    rw [le32]
    apply BitVec.eq_of_getLsbD_eq
    intro i hi
    simp only [BitVec.getLsbD_append, BitVec.getLsbD_extractLsb']
    rcases Nat.lt_or_ge i 8 with h | h
    · simp [h]
    · rcases Nat.lt_or_ge i 16 with h' | h'
      · simp [show ¬ i < 8 by omega, show i - 8 < 8 by omega, show 8 + (i - 8) = i by omega]
      · rcases Nat.lt_or_ge i 24 with h'' | h''
        · simp [show ¬ i < 8 by omega, show ¬ i - 8 < 8 by omega, show i - 8 - 8 < 8 by omega, show 16 + (i - 8 - 8) = i by omega]
        · simp [show ¬ i < 8 by omega, show ¬ i - 8 < 8 by omega, show ¬ i - 8 - 8 < 8 by omega,
            show i - 8 - 8 - 8 < 8 by omega, show 24 + (i - 8 - 8 - 8) = i by omega]

theorem bytesLe32_le32 (a b c d : U8) : bytesLe32 (le32 a b c d) = [a, b, c, d] := by
  rw [bytesLe32, le32]
  refine congrArg₂ List.cons ?_ (congrArg₂ List.cons ?_ (congrArg₂ List.cons ?_ (congrArg (· :: []) ?_))) <;>
  · apply BitVec.eq_of_getLsbD_eq
    intro i hi
    simp only [BitVec.getLsbD_append, BitVec.getLsbD_extractLsb']
    simp [hi, show 8 + i - 8 = i by omega, show ¬ (8 + i < 8) by omega, show ¬ (16 + i < 8) by omega, show ¬ (16 + i - 8 < 8) by omega,
      show 16 + i - 8 - 8 = i by omega, show ¬ (24 + i < 8) by omega, show ¬ (24 + i - 8 < 8) by omega,
      show ¬ (24 + i - 8 - 8 < 8) by omega, show 24 + i - 8 - 8 - 8 = i by omega]

theorem bytesLe32_words32le (l : List U8) (h : l.length % 4 = 0) : (words32le l).flatMap bytesLe32 = l := by
  induction l using words32le.induct with
  | case1 a b c d l ih =>
    rw [words32le, List.flatMap_cons, bytesLe32_le32, ih (by simp only [List.length_cons] at h; omega)]
    rfl
  | case2 l hl =>
    match l with
    | [] => rfl
    | [_] | [_, _] | [_, _, _] => simp at h
    | a :: b :: c :: d :: l => exact absurd rfl (hl a b c d l)

theorem words32le_inj {l l' : List U8} (h : l.length % 4 = 0) (h' : l'.length % 4 = 0) (e : words32le l = words32le l') : l = l' := by
  rw [← bytesLe32_words32le l h, e, bytesLe32_words32le l' h']

/-- The state before the rounds. -/
def chachaState (k : Bytes 32) (j : Bytes 12 × U32) : Words 32 16 := ⟨ChaCha.init k.1 j.2 j.1.1, Hacspec.ChaCha.length_init j.2 k.2 j.1.2⟩

theorem chachaState_inj {k k' : Bytes 32} {j j' : Bytes 12 × U32} (h : chachaState k j = chachaState k' j') : k = k' ∧ j = j' := by
  have h := congrArg Subtype.val h
  simp only [chachaState, ChaCha.init, List.append_assoc] at h
  have hk : (words32le k.1).length = (words32le k'.1).length := by rw [length_words32le, length_words32le, k.2, k'.2]
  obtain ⟨h1, h2⟩ := List.append_inj (List.append_cancel_left h) hk
  rw [List.singleton_append, List.singleton_append] at h2
  obtain ⟨h3, h4⟩ := List.cons.inj h2
  have e1 := words32le_inj (by rw [k.2]) (by rw [k'.2]) h1
  have e2 := words32le_inj (by rw [j.1.2]) (by rw [j'.1.2]) h4
  exact ⟨Subtype.ext e1, Prod.ext (Subtype.ext e2) h3⟩

/-- The block after the rounds. -/
def chachaOut (k : Bytes 32) (j : Bytes 12 × U32) (x : Words 32 16) : Bytes 64 :=
  ⟨(List.zipWith (· + ·) x.1 (chachaState k j).1).flatMap bytesLe32, by
    rw [Hacspec.ChaCha.length_flatMap_const (n := 4) fun _ => rfl, List.length_zipWith, x.2, (chachaState k j).2, Nat.min_self]⟩

theorem zipWith_sum_left {a b c : List U32} (h1 : a.length = b.length) (h2 : a.length = c.length)
    (h : List.zipWith (· + ·) a b = List.zipWith (· + ·) a c) : b = c := by
  refine List.ext_getElem (by omega) fun i hi hi' => ?_
  have := List.getElem_of_eq h (i := i) (by rw [List.length_zipWith]; omega)
  rw [List.getElem_zipWith, List.getElem_zipWith] at this
  exact (BitVec.add_right_inj _).mp this

theorem zipWith_sum_right {a b c : List U32} (h1 : b.length = a.length) (h2 : c.length = a.length)
    (h : List.zipWith (· + ·) b a = List.zipWith (· + ·) c a) : b = c := by
  refine List.ext_getElem (by omega) fun i hi hi' => ?_
  have := List.getElem_of_eq h (i := i) (by rw [List.length_zipWith]; omega)
  rw [List.getElem_zipWith, List.getElem_zipWith] at this
  exact (BitVec.add_left_inj _).mp this

theorem chachaOut_inj (k : Bytes 32) (j : Bytes 12 × U32) : Function.Injective (chachaOut k j) := by
  intro x y h
  have h := congrArg (fun b : Bytes 64 => words32le b.1) h
  simp only [chachaOut, words32le_bytesLe32] at h
  exact Subtype.ext (zipWith_sum_right (by rw [x.2, (chachaState k j).2]) (by rw [y.2, (chachaState k j).2]) h)

theorem card_chacha : Fintype.card (Words 32 16) = Fintype.card (Bytes 64) := by
  rw [card_words, card_bytes]
  decide +kernel

theorem chachaOut_bij (k : Bytes 32) (j : Bytes 12 × U32) : Function.Bijective (chachaOut k j) :=
  (Fintype.bijective_iff_injective_and_card _).mpr ⟨chachaOut_inj k j, card_chacha⟩

/-- The block after the rounds, as a bijection. -/
noncomputable def chachaEquiv (k : Bytes 32) (j : Bytes 12 × U32) : Words 32 16 ≃ Bytes 64 := Equiv.ofBijective _ (chachaOut_bij k j)

theorem chachaEquiv_key {k k' : Bytes 32} {j : Bytes 12 × U32} {r : Bytes 64} (h : (chachaEquiv k j).symm r = (chachaEquiv k' j).symm r) :
    k = k' := by
  have h1 : chachaOut k j ((chachaEquiv k j).symm r) = r := (chachaEquiv k j).apply_symm_apply r
  have h2 : chachaOut k' j ((chachaEquiv k j).symm r) = r := by rw [h]; exact (chachaEquiv k' j).apply_symm_apply r
  have e := congrArg (fun b : Bytes 64 => words32le b.1) (h1.trans h2.symm)
  simp only [chachaOut, words32le_bytesLe32] at e
  have := zipWith_sum_left (((chachaEquiv k j).symm r).2.trans (chachaState k j).2.symm)
    (((chachaEquiv k j).symm r).2.trans (chachaState k' j).2.symm) e
  exact (chachaState_inj (Subtype.ext this)).1

/-- The blocks of the code. -/
noncomputable abbrev chachaFeed (π : Equiv.Perm (Words 32 16)) (k : Bytes 32) : Bytes 12 × U32 → Bytes 64 :=
  feed (chachaState k) (chachaEquiv k) π

theorem chachaBlockOf_ok (π : Equiv.Perm (Words 32 16)) (k : Bytes 32) (j : Bytes 12 × U32) :
    chachaBlockOf π k j = .ok (chachaFeed π k j).1 := by
  have hs := (chachaState k j).2
  have hπ := (π (chachaState k j)).2
  rw [chachaBlockOf, Hacspec.ChaCha.blockWith, Hacspec.ChaCha.blockInnerWith, Hacspec.ChaCha.blockInit_ok j.2 k.2 j.1.2, bind_ok,
    chachaPerm, dif_pos (Hacspec.ChaCha.length_init j.2 k.2 j.1.2), bind_ok,
    show (⟨ChaCha.init k.1 j.2 j.1.1, Hacspec.ChaCha.length_init j.2 k.2 j.1.2⟩ : Words 32 16) = chachaState k j from rfl,
    show ChaCha.init k.1 j.2 j.1.1 = (chachaState k j).1 from rfl, Hacspec.ChaCha.addLoop_ok hπ hs, bind_ok,
    Hacspec.ChaCha.stateToBytes_ok (by rw [List.length_zipWith, hπ, hs]; rfl)]
  rfl

end Hacspec.Ideal
