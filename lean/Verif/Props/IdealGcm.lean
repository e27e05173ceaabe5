import Verif.Lemmas.Ideal.Keyed
import Verif.Props.IdealAeads
import Verif.Props.Switches

/-! # C117: AES-GCM with a random block cipher in place of AES -/

namespace Hacspec.Props

open Spec Hacspec.Ideal Finset

/-- **C117.**  AES is one of these block ciphers: with it, the attacked functions are `encrypt_aes` and `decrypt_aes`. -/
theorem C117_code (alg : Hacspec.Aes.Variant) : ∃ E : Bytes (4 * Hacspec.Aes.nk alg) → Equiv.Perm (Bytes 16),
    (∀ key x, Hacspec.Aes.encryptBlock key.1 x.1 (Hacspec.Aes.nk alg) (Hacspec.Aes.nr alg) alg = .ok (E key x).1) ∧
    ∀ (key : Bytes (4 * Hacspec.Aes.nk alg)) (iv : Bytes 12) (aad m c : List U8) (t : Bytes 16),
      (aesGcmOf _).enc (E, key) iv aad m = Hacspec.AesGcm.encrypt key.1 iv.1 aad m alg ∧
      (aesGcmOf _).dec (E, key) iv aad c t = Hacspec.AesGcm.decrypt key.1 iv.1 aad c t.1 alg := by
  choose E h1 h2 using fun key : Bytes (4 * Hacspec.Aes.nk alg) => C108_code alg key.1 key.2
  exact ⟨E, h1, h2⟩

theorem aesGcmOf_answer {k : Nat} (ω : (Bytes k → Equiv.Perm (Bytes 16)) × Bytes k) (a : Ask) :
    (aesGcmOf k).answer ω a = aesGcm.answer (ω.1 ω.2) a := by
  cases a <;> rfl

theorem gcm_le {k : Nat} {Q O : Type} (f : Q → Ask) {p : GcmAttack k Q O} {q n : Nat} (hc : p.Counts q n) (acc : O → Prop) :
    |share (fun ω : (Bytes k → Equiv.Perm (Bytes 16)) × Bytes k =>
        acc (p.run (sideAnswer (Dir.answer ω.1) fun x => (aesGcmOf k).answer ω (f x)))) -
      share (fun ω : (Bytes k → Equiv.Perm (Bytes 16)) × Equiv.Perm (Bytes 16) =>
        acc (p.run (sideAnswer (Dir.answer ω.1) fun x => aesGcm.answer ω.2 (f x))))| ≤ q / 2 ^ (8 * k) := by
  classical
  have h : ∀ acc : O → Prop, share (fun ω : (Bytes k → Equiv.Perm (Bytes 16)) × Bytes k =>
        acc (p.run (sideAnswer (Dir.answer ω.1) fun x => (aesGcmOf k).answer ω (f x)))) ≤
      share (fun ω : (Bytes k → Equiv.Perm (Bytes 16)) × Equiv.Perm (Bytes 16) =>
        acc (p.run (sideAnswer (Dir.answer ω.1) fun x => aesGcm.answer ω.2 (f x)))) + q / 2 ^ (8 * k) := by
    intro acc
    have h := share_keyed (K := Bytes k) (fun (π : Equiv.Perm (Bytes 16)) x => aesGcm.answer π (f x)) hc acc
    have hk : (Fintype.card (Bytes k) : ℚ) = 2 ^ (8 * k) := by
      rw [card_bytes, pow_mul]
      norm_num
    rw [hk] at h
    refine le_trans (le_of_eq (share_congr fun ω => ?_)) h
    simp only [aesGcmOf_answer]
  have h1 := h acc
  have h2 := h fun o => ¬ acc o
  have : Nonempty (Bytes k) := ⟨⟨List.replicate k 0, List.length_replicate⟩⟩
  rw [share_sub, share_sub] at h2
  rw [abs_le]
  constructor <;> linarith

/-- All other answers are known. -/
theorem gcm_forge {D X O : Type} (g : D → X) (p : Prog (D ⊕ Ask) (X ⊕ Seen) O) {L q n : Nat} (hL : L < 2 ^ 32) (hn : n * L < 2 ^ 64)
    (hc : p.Counts q n) (hp : ByRules id L p []) :
    share (fun π : Equiv.Perm (Bytes 16) => Decrypted (p.answers (sideAnswer g fun x => aesGcm.answer π x))) ≤ gcmForgery L n := by
  classical
  have h1 := C108_forgery_short (strategyOf id (strip g p)) L n (proper_strategy id L _ hp) hL hn
  have h2 := share_of_card (by norm_num) h1
  refine (share_mono fun π hF => ?_).trans (h2.trans (le_of_eq ?_))
  · obtain ⟨iv, aad, c, t, m, hm⟩ := hF
    have hm := (answers_strip _ _ p).mp hm
    obtain ⟨k, hk, e⟩ := answers_play aesGcm id π _ (strip_within _ hc) hm
    exact ⟨k, hk, iv, aad, c, t, m, e⟩
  · rw [gcmForgery]
    push_cast
    rfl

/-- **C117.**  Whoever asks the block cipher `q` times, with any keys, and `n` questions by the rules, with data of at most `L` blocks,
has a ciphertext decrypted that was not an answer for at most `gcmForgery L n + q/2⁸ᵏ` of all block ciphers and keys. -/
theorem C117_forgery {k : Nat} {O : Type} (p : GcmAttack k Ask O) (L q n : Nat) (hL : L < 2 ^ 32) (hn : n * L < 2 ^ 64) (hc : p.Counts q n)
    (hp : ByRules id L p []) :
    share (fun ω : (Bytes k → Equiv.Perm (Bytes 16)) × Bytes k =>
        Decrypted (p.answers (sideAnswer (Dir.answer ω.1) ((aesGcmOf k).answer ω)))) ≤
      gcmForgery L n + q / 2 ^ (8 * k) := by
  classical
  have h := gcm_le id (record_counts hc []) Decrypted
  have h := (abs_le.mp h).2
  simp only [run_record, List.nil_append, id] at h
  have h2 : share (fun ω : (Bytes k → Equiv.Perm (Bytes 16)) × Equiv.Perm (Bytes 16) =>
      Decrypted (p.answers (sideAnswer (Dir.answer ω.1) fun x => aesGcm.answer ω.2 x))) ≤ gcmForgery L n := by
    refine share_prod_le (by rw [gcmForgery]; positivity) fun E => ?_
    exact gcm_forge (Dir.answer E) p hL hn hc hp
  linarith

/-- All other answers are known. -/
theorem gcm_choose {D X O : Type} (g : D → X) (p : Prog (D ⊕ Pair) (X ⊕ Seen) O) {L q n : Nat} (hL : L < 2 ^ 32) (hn : n * L < 2 ^ 64)
    (hc : p.Counts q n) (hp : ByRules Pair.fst L p []) (acc : O → Prop) :
    share (fun π : Equiv.Perm (Bytes 16) => acc (p.run (sideAnswer g fun x => aesGcm.answer π x.fst))) ≤
      share (fun π : Equiv.Perm (Bytes 16) => acc (p.run (sideAnswer g fun x => aesGcm.answer π x.snd))) + gcmPrivacy L n := by
  classical
  let p' := strip g p
  have hw : p'.Within n := strip_within _ hc
  have h := C108_hiding (strategyOf Pair.fst p') (strategyOf Pair.snd p') L n (proper_strategy _ L _ hp)
    (proper_strategy _ L _ (rules_snd hp)) hL (similar_strategy p') fun h => ∃ o, residual p' h = .ret o ∧ acc o
  have h1 : (n * L + 1) * (n * L) ≤ 2 ^ 64 * 2 ^ 64 := Nat.mul_le_mul (by omega) (by omega)
  have ha : 2 ^ 128 ≤ 2 ^ 129 - (n * L + 1) * (n * L) := by omega
  have h := share_of_cards (by omega) h
  have e : ∀ (f : Pair → Ask) (π : Equiv.Perm (Bytes 16)),
      (∃ o, residual p' (aesGcm.play (strategyOf f p') π n) = .ret o ∧ acc o) ↔
        acc (p.run (sideAnswer g fun x => aesGcm.answer π (f x))) := by
    intro f π
    rw [residual_play aesGcm f π p' hw, ← run_strip]
    exact ⟨fun ⟨o, h, ha⟩ => (Prog.ret.inj h) ▸ ha, fun h => ⟨_, rfl, h⟩⟩
  rw [share_congr (e Pair.fst), share_congr (e Pair.snd)] at h
  refine h.trans (add_le_add_right (le_trans (div_le_div_of_nonneg_left (by positivity) (by positivity) (Nat.cast_le.mpr ha)) (le_of_eq ?_)) _)
  rw [gcmPrivacy]
  push_cast
  ring

theorem gcm_choice {k : Nat} {O : Type} (p : GcmAttack k Pair O) {L q n : Nat} (hL : L < 2 ^ 32) (hn : n * L < 2 ^ 64) (hc : p.Counts q n)
    (hp : ByRules Pair.fst L p []) (acc : O → Prop) :
    share (fun ω : (Bytes k → Equiv.Perm (Bytes 16)) × Equiv.Perm (Bytes 16) =>
        acc (p.run (sideAnswer (Dir.answer ω.1) fun x => aesGcm.answer ω.2 x.fst))) ≤
      share (fun ω : (Bytes k → Equiv.Perm (Bytes 16)) × Equiv.Perm (Bytes 16) =>
        acc (p.run (sideAnswer (Dir.answer ω.1) fun x => aesGcm.answer ω.2 x.snd))) + gcmPrivacy L n := by
  classical
  exact share_prod_add fun E => gcm_choose (Dir.answer E) p hL hn hc hp acc

/-- **C117.**  Whoever asks for encryptions with two messages of one length each time, and for decryptions, cannot tell which of the
messages are encrypted. -/
theorem C117_privacy {k : Nat} {O : Type} (p : GcmAttack k Pair O) (L q n : Nat) (hL : L < 2 ^ 32) (hn : n * L < 2 ^ 64) (hc : p.Counts q n)
    (hp : ByRules Pair.fst L p []) (acc : O → Prop) :
    |share (fun ω : (Bytes k → Equiv.Perm (Bytes 16)) × Bytes k =>
        acc (p.run (sideAnswer (Dir.answer ω.1) fun x => (aesGcmOf k).answer ω x.fst))) -
      share (fun ω : (Bytes k → Equiv.Perm (Bytes 16)) × Bytes k =>
        acc (p.run (sideAnswer (Dir.answer ω.1) fun x => (aesGcmOf k).answer ω x.snd)))| ≤
      gcmPrivacy L n + 2 * (q / 2 ^ (8 * k)) := by
  have a1 := abs_le.mp (gcm_le Pair.fst hc acc)
  have a2 := abs_le.mp (gcm_le Pair.snd hc acc)
  have b1 := gcm_choice p hL hn hc hp acc
  have b2 := gcm_choice p hL hn hc hp fun o => ¬ acc o
  rw [share_sub, share_sub] at b2
  rw [abs_le]
  constructor <;> linarith [a1.1, a1.2, a2.1, a2.2]

/-- A choice between two messages; the guess is made by enciphering the first counter with the key 0. -/
def gcmGuess : GcmAttack 16 Pair Bool :=
  .ask (.inr ⟨(.enc zeroIv [1] [0, 0], .enc zeroIv [1] [1, 2]), rfl, rfl, rfl⟩) fun s =>
    .ask (.inl (.fwd ⟨List.replicate 16 0, List.length_replicate⟩ ⟨zeroIv.1 ++ [0, 0, 0, 2], rfl⟩)) fun r =>
      .ret (match s, r with
        | .inr (.enc _ _ c _), .inl w => decide (c = w.1.take 2)
        | _, _ => false)

example := C117_privacy gcmGuess 3 1 1 (by norm_num) (by norm_num) ⟨0, rfl, fun _ => ⟨0, rfl, fun _ => trivial⟩⟩
  ⟨⟨fun _ _ _ h => absurd h List.not_mem_nil, by decide⟩, fun _ _ => trivial⟩ (fun b => b = true)

/-- The tag of the empty message for the key 0. -/
def gcmForge : GcmAttack 16 Ask Unit :=
  .ask (.inl (.fwd ⟨List.replicate 16 0, List.length_replicate⟩ ⟨zeroIv.1 ++ [0, 0, 0, 1], rfl⟩)) fun
    | .inl t => .ask (.inr (.dec zeroIv [] [] t)) fun _ => .ret ()
    | .inr _ => .ret ()

example : share (fun ω : (Bytes 16 → Equiv.Perm (Bytes 16)) × Bytes 16 =>
    Decrypted (gcmForge.answers (sideAnswer (Dir.answer ω.1) ((aesGcmOf 16).answer ω)))) ≤ gcmForgery 1 1 + (1 : Nat) / 2 ^ (8 * 16) := by
  refine C117_forgery gcmForge 1 1 1 (by norm_num) (by norm_num) ⟨0, rfl, fun s => ?_⟩ fun x => ?_
  · cases s with
    | inl t => exact ⟨0, rfl, fun _ => trivial⟩
    | inr s => trivial
  · exact ⟨⟨List.not_mem_nil, by decide⟩, fun _ => trivial⟩

/-- AES-256: `2²⁰⁰` questions to the block cipher; `2²⁰` messages of `2¹⁶` bytes. -/
example : gcmForgery (2 ^ 12) (2 ^ 20) + (2 ^ 200 : Nat) / 2 ^ (8 * 32) < 1 / 2 ^ 55 ∧
    gcmPrivacy (2 ^ 12) (2 ^ 20) + 2 * ((2 ^ 200 : Nat) / 2 ^ (8 * 32)) < 1 / 2 ^ 54 := by
  rw [gcmForgery, gcmPrivacy]
  norm_num

end Hacspec.Props
