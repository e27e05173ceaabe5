import Verif.Lemmas.Ideal.Commitments
import Verif.Props.HashStructure
import Verif.Props.Sessions

/-! # C138: commitments with HMAC -/

namespace Hacspec.Props

open Spec Hacspec.Ideal Finset

/-! ## Binding -/

/-- **C138.**  Whoever asks the block cipher inside SHA-256 `q` times finds two different openings of one commitment for at most this share
of all ciphers.  The keys have one length of at most 64 bytes; the messages have at most `ℓ` blocks and are all whole blocks, or none is.
What is missing, messages of both kinds, is false: `C138_mixed_refuted`. -/
theorem C138_binding_partial {whole : Bool} {ℓ n : Nat} (hn : n ≤ 64) (hℓ : ℓ < 2 ^ 54)
    (p : Prog (Dir (Bytes 64) (Words 32 8)) (Words 32 8) (Opening n whole ℓ × Opening n whole ℓ)) (q : Nat) (hp : p.Within q)
    (hT : q + (4 * ℓ + 6) < 2 ^ 256) :
    share (fun E : Bytes 64 → Equiv.Perm (Words 32 8) => OpensTwice (Hacspec.Ideal.hmac E) (p.run (Dir.answer E))) ≤ bindingBound (q + (4 * ℓ + 6)) := by
  classical
  let bl : Texts whole ℓ → List (Bytes 64) := fun z => restKeys z.1
  have hbl : ∀ z, (bl z).length ≤ ℓ := fun z => length_restKeys z.2.1
  have hinj : Function.Injective bl := by
    intro z z' h
    have h1 := z.2.1
    have h2 := z'.2.1
    exact Subtype.ext (restKeys_inj (by omega) (by omega) (z.2.2.trans z'.2.2.symm) h)
  let P := andThen p (openings addWords (padKey 0x36#8 hn) (padKey 0x5c#8 hn) shaStart outerBlock bl)
  have hP : P.Within (q + 2 * (ℓ + 1)) := within_andThen hp fun o => openings_within _ _ _ _ _ _ hbl o
  have h := dm_collision addWords (allCiphers (Bytes 64) (Words 32 8)) addWords_right addWords_left P _ (ℓ + 2) hP Prod.fst Prod.snd shaStart
    (fun E : Bytes 64 → Equiv.Perm (Words 32 8) => OpensTwice (Hacspec.Ideal.hmac E) (p.run (Dir.answer E))) ?_
  · have hX : Fintype.card (Words 32 8) = 2 ^ 256 := by rw [card_words, ← Nat.pow_mul]
    rw [hX, show q + 2 * (ℓ + 1) + 2 * (ℓ + 2) = q + (4 * ℓ + 6) by omega] at h
    generalize hs : q + (4 * ℓ + 6) = s at h hT ⊢
    have hd : (0 : ℚ) < 2 * (2 ^ 256 - s) := by
      have : (s : ℚ) < 2 ^ 256 := by exact_mod_cast hT
      linarith
    have hc : (0 : ℚ) < Fintype.card (Bytes 64 → Equiv.Perm (Words 32 8)) := Nat.cast_pos.mpr Fintype.card_pos
    have h : (2 * (2 ^ 256 - s) : ℚ) * (univ.filter fun E : Bytes 64 → Equiv.Perm (Words 32 8) =>
        OpensTwice (Hacspec.Ideal.hmac E) (p.run (Dir.answer E))).card ≤ s * (s + 1) * Fintype.card (Bytes 64 → Equiv.Perm (Words 32 8)) := by
      have h := (Nat.cast_le (α := ℚ)).mpr h
      simp only [Nat.cast_mul, Nat.cast_sub hT.le, Nat.cast_pow, Nat.cast_ofNat, Nat.cast_add, Nat.cast_one] at h
      exact h
    rw [share, bindingBound, div_le_div_iff₀ hc hd, mul_comm]
    convert h using 2
  · rintro E ⟨hne, t, h1, h2⟩
    generalize ho : p.run (Dir.answer E) = o at hne h1 h2
    have m1 := o.1.2.2.1
    have m2 := o.2.2.2.1
    rw [hmac_nested E hn o.1.1 (by omega)] at h1
    rw [hmac_nested E hn o.2.1 (by omega)] at h2
    have e := digestOf_inj (Subtype.ext (Except.ok.inj (h1.trans h2.symm)))
    have hr : P.run (Dir.answer E) = (openings addWords (padKey 0x36#8 hn) (padKey 0x5c#8 hn) shaStart outerBlock bl o).run (Dir.answer E) := by
      rw [run_andThen (fun E : Bytes 64 → Equiv.Perm (Words 32 8) => Dir.answer E) E, ho]
    obtain ⟨l1, l2, hd, hi⟩ := openings_collide addWords (padKey 0x36#8 hn) (padKey 0x5c#8 hn) shaStart outerBlock bl (padKey_inj _ hn)
      outerBlock_inj hinj hbl E hne e _ hr.symm
    exact ⟨l1, l2, hd, _, chained_dm .., (chained_dm ..).trans (congrArg Except.ok hi.symm)⟩

/-- **C138.**  Messages of both kinds are not bound: for every message that is not whole blocks there is another one that opens every
commitment to it with the same key. -/
theorem C138_mixed_refuted (m : List U8) (h : m.length % 64 ≠ 0) (hm : 192 + m.length < 2 ^ 61) :
    ∃ m', m' ≠ m ∧ ∀ k : List U8, k.length ≤ 64 → ∃ t, Hacspec.Hmac.hmac k m' = .ok t ∧ Hacspec.Hmac.hmac k m = .ok t := by
  obtain ⟨E, -, hE⟩ := C113_code
  have hz : (afterKey m).length % 64 = 0 := length_afterKey m
  have hl : (afterKey m).length ≤ m.length + 128 := by
    rw [afterKey, if_neg h]
    simp only [bytesBe64, List.length_append, List.length_cons, List.length_nil, List.length_replicate]; omega
  refine ⟨afterKey m, fun e => h (by rw [← e]; exact hz), fun k hk => ?_⟩
  have e : restKeys (afterKey m) = restKeys m := by
    refine List.map_injective_iff.mpr Subtype.val_injective ?_
    rw [map_restKeys, map_restKeys, afterKey, if_pos hz]
  rw [← hE k _ hk (by omega), ← hE k m hk (by omega)]
  refine ⟨_, hmac_nested E hk ⟨k, rfl⟩ (by omega), ?_⟩
  rw [hmac_nested E hk ⟨k, rfl⟩ (m := m) (by omega), nested, nested, e]

/-- **C138.**  Keys of several lengths are not bound. -/
theorem C138_keys_refuted (k m : List U8) (hk : k.length < 64) : k ++ [0] ≠ k ∧ Hacspec.Hmac.hmac (k ++ [0]) m = Hacspec.Hmac.hmac k m :=
  ⟨fun h => by simpa using congrArg List.length h, C76_zeros k m 1 (by omega)⟩

/-! ## Hiding -/

/-- **C138.**  Whoever asks the block cipher `q` times and chooses two messages does not find out to which of them the commitment is. -/
theorem C138_hiding {whole : Bool} {ℓ n : Nat} (hn : n ≤ 64) (hℓ : ℓ < 2 ^ 54) {O : Type} (p : CommitAttack whole ℓ O) (q : Nat)
    (hp : p.Counts q 1) (hT : q + ℓ < 2 ^ 256) (acc : O → Prop) :
    |share (fun ω : (Bytes 64 → Equiv.Perm (Words 32 8)) × Bytes n =>
        acc (p.run (macAnswer ω.1 fun x => Hacspec.Ideal.hmac ω.1 ω.2.1 x.1.1))) -
      share (fun ω : (Bytes 64 → Equiv.Perm (Words 32 8)) × Bytes n =>
        acc (p.run (macAnswer ω.1 fun x => Hacspec.Ideal.hmac ω.1 ω.2.1 x.2.1)))| ≤ 2 * prfBound n (q + ℓ) 1 := by
  have h := fun f : Texts whole ℓ × Texts whole ℓ → Texts whole ℓ => C113_prf hn hℓ (reask f p) q 1 (reask_counts f hp) (by rwa [Nat.one_mul]) acc
  simp only [macAnswer_side, run_reask, Nat.one_mul] at h ⊢
  have h1 := abs_le.mp (h Prod.fst)
  have h2 := abs_le.mp (h Prod.snd)
  have e : share (fun ω : (Bytes 64 → Equiv.Perm (Words 32 8)) × (Texts whole ℓ → Bytes 32) =>
        acc (p.run (sideAnswer (Dir.answer ω.1) fun w => .ok (ω.2 w.1).1))) =
      share (fun ω : (Bytes 64 → Equiv.Perm (Words 32 8)) × (Texts whole ℓ → Bytes 32) =>
        acc (p.run (sideAnswer (Dir.answer ω.1) fun w => .ok (ω.2 w.2).1))) := by
    rw [share_prod, share_prod]
    congr 1
    exact Finset.sum_congr rfl fun E _ => share_one_question (Dir.answer E) Prod.fst Prod.snd (fun y : Bytes 32 => .ok y.1) hp acc
  rw [abs_le]
  constructor <;> linarith [h1.1, h1.2, h2.1, h2.2]

/-! ## The code -/

/-- **C138.**  `schedule` and `shuffle` are one of the ciphers: with it, commitments are made and opened with `hmac`. -/
theorem C138_code : ∃ E : Bytes 64 → Equiv.Perm (Words 32 8),
    (∀ b s, (Hacspec.Sha2.schedule b.1 >>= fun ws => Hacspec.Sha2.shuffle ws s.1) = .ok (E b s).1) ∧
    ∀ {whole : Bool} {ℓ n : Nat}, n ≤ 64 → ℓ < 2 ^ 54 →
      (∀ o : Opening n whole ℓ, ∃ t, Hacspec.Hmac.hmac o.1.1 o.2.1 = .ok t ∧ Hacspec.Ideal.hmac E o.1.1 o.2.1 = .ok t) ∧
      ∀ o : Opening n whole ℓ × Opening n whole ℓ, OpensTwice (Hacspec.Ideal.hmac E) o ↔ OpensTwice Hacspec.Hmac.hmac o := by
  obtain ⟨E, h1, h2⟩ := C113_code
  refine ⟨E, h1, fun {whole ℓ n} hn hℓ => ?_⟩
  have h3 : ∀ o : Opening n whole ℓ, Hacspec.Ideal.hmac E o.1.1 o.2.1 = Hacspec.Hmac.hmac o.1.1 o.2.1 := by
    intro o
    have hk := o.1.2
    have hm := o.2.2.1
    exact h2 _ _ (by omega) (by omega)
  refine ⟨fun o => ?_, fun o => by rw [OpensTwice, OpensTwice, h3, h3]⟩
  have hm := o.2.2.1
  exact ⟨_, (h3 o).symm.trans (hmac_nested E hn o.1 (by omega)), hmac_nested E hn o.1 (by omega)⟩

/-! ## Examples -/

/-- The cipher is asked, and two messages are opened with one key. -/
example := C138_binding_partial (whole := false) (ℓ := 1) (n := 32) (by decide) (by decide)
  (.ask (.fwd ⟨List.replicate 64 0, List.length_replicate⟩ shaStart) fun _ => .ret
    ((⟨List.replicate 32 0, List.length_replicate⟩, ⟨[1], by decide, by decide⟩), (⟨List.replicate 32 0, List.length_replicate⟩, ⟨[2], by decide, by decide⟩)))
  1 ⟨0, rfl, fun _ => trivial⟩ (by norm_num)

example := C138_mixed_refuted [1] (by decide) (by decide)

example := C138_keys_refuted [1] [2] (by decide)

/-- One of two messages is committed to, and the cipher is asked; the guess is that the commitment starts with a zero. -/
example := C138_hiding (whole := false) (ℓ := 1) (n := 32) (by decide) (by decide)
  (.ask (.inr (⟨[1], by decide, by decide⟩, ⟨[2], by decide, by decide⟩)) fun t =>
    .ask (.inl (.fwd ⟨List.replicate 64 0, List.length_replicate⟩ shaStart)) fun _ => .ret (match t with
      | .inr (.ok t) => t.head? = some 0
      | _ => False)) 1 ⟨0, rfl, fun _ => ⟨0, rfl, fun _ => trivial⟩⟩ (by norm_num) (fun b => b)

/-- `2¹⁰⁰` questions and messages of `2³⁰` blocks. -/
example : bindingBound (2 ^ 100 + (4 * 2 ^ 30 + 6)) < 1 / 2 ^ 56 := by
  rw [bindingBound]
  norm_num

end Hacspec.Props
