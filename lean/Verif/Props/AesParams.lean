import Verif.Lemmas.AesParams
import Verif.Spec.Perm

/-! # C122: the parameters `nk` and `nr` of the public block functions of AES -/

namespace Hacspec.Props

open Hacspec.Seq Hacspec.Spec

/-- **C122** `aes128_encrypt_block` returns just if `nr` is 10 and `nk` is at least 3, and else panics. What it returns is the cipher
whose schedule treats every `nk`-th word apart. -/
theorem C122_aes128 (key s : List U8) (hk : key.length = 16) (hs : s.length = 16) (nk nr : Nat) :
    Hacspec.Aes.aes128EncryptBlock key s nk nr =
      if nr = 10 ∧ 3 ≤ nk then .ok (Spec.Aes.cipherAs 4 nk 10 key s) else panic := by
  rw [Hacspec.Aes.aes128EncryptBlock, fromSeq_ok, bind_ok]
  exact Hacspec.Aes.encryptBlock_as (alg := .aes128) nk nr hk hs

/-- **C122** `aes256_encrypt_block` returns just if `nr` is 14 and `nk` is at least 4. -/
theorem C122_aes256 (key s : List U8) (hk : key.length = 32) (hs : s.length = 16) (nk nr : Nat) :
    Hacspec.Aes.aes256EncryptBlock key s nk nr =
      if nr = 14 ∧ 4 ≤ nk then .ok (Spec.Aes.cipherAs 8 nk 14 key s) else panic := by
  rw [Hacspec.Aes.aes256EncryptBlock, fromSeq_ok, bind_ok]
  exact Hacspec.Aes.encryptBlock_as (alg := .aes256) nk nr hk hs

/-- **C122** With the number of words of the key for `nk` it is AES. -/
theorem C122_standard (key s : List U8) :
    Spec.Aes.cipherAs 4 4 10 key s = Spec.Aes.cipher 4 10 key s ∧ Spec.Aes.cipherAs 8 8 14 key s = Spec.Aes.cipher 8 14 key s :=
  ⟨Hacspec.Aes.cipherAs_self 4 10 key s, Hacspec.Aes.cipherAs_self 8 14 key s⟩

/-- **C122** Whatever `nk` is, a key for which the function returns gives a permutation of the blocks. -/
theorem C122_permutes {key : List U8} {nk : Nat} :
    (key.length = 16 → 3 ≤ nk → Permutes 16 (fun s => Hacspec.Aes.aes128EncryptBlock key s nk 10)) ∧
    (key.length = 32 → 4 ≤ nk → Permutes 16 (fun s => Hacspec.Aes.aes256EncryptBlock key s nk 14)) := by
  constructor
  · intro hk hn
    have hu := Hacspec.Aes.uniform_scheduleAs (alg := .aes128) nk hk
    have hl := Hacspec.Aes.length_scheduleAs (alg := .aes128) nk key
    have e : ∀ s : List U8, s.length = 16 → Hacspec.Aes.aes128EncryptBlock key s nk 10 = .ok (Spec.Aes.cipherAs 4 nk 10 key s) :=
      fun s hs => (C122_aes128 key s hk hs nk 10).trans (if_pos ⟨rfl, hn⟩)
    refine ⟨fun s hs => ⟨_, e s hs, Hacspec.Aes.length_xor16 (Hacspec.Aes.length_shiftRows _)
      (Hacspec.Aes.length_roundKey hu hl (Nat.le_refl _))⟩, fun t ht => ?_⟩
    obtain ⟨s, h1, h2, h3⟩ := Hacspec.Aes.cipherWith_perm hu hl ht
    refine ⟨s, h1, (e s h1).trans (congrArg _ h2), fun s' hs' h => h3 s' hs' ?_⟩
    simp only [e s' hs'] at h
    injection h
  · intro hk hn
    have hu := Hacspec.Aes.uniform_scheduleAs (alg := .aes256) nk hk
    have hl := Hacspec.Aes.length_scheduleAs (alg := .aes256) nk key
    have e : ∀ s : List U8, s.length = 16 → Hacspec.Aes.aes256EncryptBlock key s nk 14 = .ok (Spec.Aes.cipherAs 8 nk 14 key s) :=
      fun s hs => (C122_aes256 key s hk hs nk 14).trans (if_pos ⟨rfl, hn⟩)
    refine ⟨fun s hs => ⟨_, e s hs, Hacspec.Aes.length_xor16 (Hacspec.Aes.length_shiftRows _)
      (Hacspec.Aes.length_roundKey hu hl (Nat.le_refl _))⟩, fun t ht => ?_⟩
    obtain ⟨s, h1, h2, h3⟩ := Hacspec.Aes.cipherWith_perm hu hl ht
    refine ⟨s, h1, (e s h1).trans (congrArg _ h2), fun s' hs' h => h3 s' hs' ?_⟩
    simp only [e s' hs'] at h
    injection h

/-- **C122** All `nk` from the number of words of the schedule on give the same cipher. -/
theorem C122_large (key s : List U8) {p q : Nat} :
    (44 ≤ p → 44 ≤ q → Spec.Aes.cipherAs 4 p 10 key s = Spec.Aes.cipherAs 4 q 10 key s) ∧
    (60 ≤ p → 60 ≤ q → Spec.Aes.cipherAs 8 p 14 key s = Spec.Aes.cipherAs 8 q 14 key s) := by
  constructor <;> intro hp hq <;>
    rw [Spec.Aes.cipherAs, Spec.Aes.cipherAs, Spec.Aes.scheduleAs, Spec.Aes.scheduleAs,
      Hacspec.Aes.expandAs_large (by omega) (by omega) hq (by omega) (by omega)
        (by rw [List.length_map, List.length_range])]

/-- **C122** That the function is AES for each `nk` for which it returns is false. -/
theorem C122_is_aes_refuted : ¬ ∀ (key s : List U8) (nk : Nat), key.length = 16 → s.length = 16 →
    ∀ c, Hacspec.Aes.aes128EncryptBlock key s nk 10 = .ok c → c = Spec.Aes.cipher 4 10 key s := by
  intro h
  have h5 := (C122_aes128 (List.replicate 16 0) (List.replicate 16 0) rfl rfl 5 10).trans (if_pos ⟨rfl, by omega⟩)
  have h4 := (C122_aes128 (List.replicate 16 0) (List.replicate 16 0) rfl rfl 4 10).trans (if_pos ⟨rfl, by omega⟩)
  have e := h _ _ 5 rfl rfl _ h5
  rw [← (C122_standard _ _).1] at e
  rw [e, ← h4] at h5
  exact absurd h5 (by decide +kernel)

/-- Too few rounds, too many rounds and too small a period. -/
example : Hacspec.Aes.aes128EncryptBlock (List.replicate 16 0) (List.replicate 16 0) 4 9 = panic ∧
    Hacspec.Aes.aes128EncryptBlock (List.replicate 16 0) (List.replicate 16 0) 4 11 = panic ∧
    Hacspec.Aes.aes256EncryptBlock (List.replicate 32 0) (List.replicate 16 0) 3 14 = panic :=
  ⟨C122_aes128 _ _ rfl rfl _ _, C122_aes128 _ _ rfl rfl _ _, C122_aes256 _ _ rfl rfl _ _⟩

/-- A period that is not that of AES. -/
example : Permutes 16 (fun s => Hacspec.Aes.aes256EncryptBlock (List.replicate 32 7) s 1000 14) :=
  C122_permutes.2 rfl (by omega)

end Hacspec.Props
