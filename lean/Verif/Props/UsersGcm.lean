import Verif.Lemmas.Ideal.KeyedUsers
import Verif.Props.IdealGcm
import Verif.Props.Users
import Verif.Props.WeakKeys

/-! # C129: several users of AES-GCM with one random block cipher in place of AES -/

namespace Hacspec.Props

open Spec Hacspec.Ideal Finset

theorem usersGcm_le {k u : Nat} {Q O : Type} (f : Q → Ask) {p : UsersGcmAttack k u Q O} {q n : Nat} (hc : p.Counts q n) (acc : O → Prop) :
    |share (fun ω : (Bytes k → Equiv.Perm (Bytes 16)) × (Fin u → Bytes k) =>
        acc (p.run (sideAnswer (Dir.answer ω.1) fun x => (aesGcmOf k).answer (ω.1, ω.2 x.1) (f x.2)))) -
      share (fun ω : (Bytes k → Equiv.Perm (Bytes 16)) × (Fin u → Equiv.Perm (Bytes 16)) =>
        acc (p.run (sideAnswer (Dir.answer ω.1) fun x => aesGcm.answer (ω.2 x.1) (f x.2))))| ≤ keysBound k u q := by
  classical
  have hne : Nonempty (Bytes k) := ⟨⟨List.replicate k 0, List.length_replicate⟩⟩
  have h : ∀ acc : O → Prop, share (fun ω : (Bytes k → Equiv.Perm (Bytes 16)) × (Fin u → Bytes k) =>
        acc (p.run (sideAnswer (Dir.answer ω.1) fun x => (aesGcmOf k).answer (ω.1, ω.2 x.1) (f x.2)))) ≤
      share (fun ω : (Bytes k → Equiv.Perm (Bytes 16)) × (Fin u → Equiv.Perm (Bytes 16)) =>
        acc (p.run (sideAnswer (Dir.answer ω.1) fun x => aesGcm.answer (ω.2 x.1) (f x.2)))) + keysBound k u q := by
    intro acc
    have h := share_keyed_each (K := Bytes k) (fun (πs : Fin u → Equiv.Perm (Bytes 16)) (x : Fin u × Q) => aesGcm.answer (πs x.1) (f x.2)) hc acc
    have hk : (Fintype.card (Bytes k) : ℚ) = 2 ^ (8 * k) := by
      rw [card_bytes, pow_mul]
      norm_num
    rw [hk] at h
    refine le_trans (le_of_eq (share_congr fun ω => ?_)) (h.trans (le_of_eq ?_))
    · simp only [aesGcmOf_answer]
    · rw [keysBound]
      field_simp
  have h1 := h acc
  have h2 := h fun o => ¬ acc o
  rw [share_sub, share_sub] at h2
  rw [abs_le]
  constructor <;> linarith

/-- **C129.**  Whoever asks the block cipher `q` times, with any keys, and `u` users, the user `i` at most `m i` times, by the rules, with
data of at most `L` blocks, has a ciphertext decrypted by a user who did not make it for at most this share of all block ciphers and
keys. -/
theorem C129_forgery {k : Nat} {O : Type} (u : Nat) (p : UsersGcmAttack k u Ask O) (L q n : Nat) (m : Fin u → Nat) (hL : L < 2 ^ 32)
    (hn : ∀ i, m i * L < 2 ^ 64) (hc : p.Counts q n) (hm : p.Each m) (hp : ByRulesEach id L p fun _ => []) :
    share (fun ω : (Bytes k → Equiv.Perm (Bytes 16)) × (Fin u → Bytes k) =>
        Decrypted (p.answers (sideAnswer (Dir.answer ω.1) fun x => (aesGcmOf k).answer (ω.1, ω.2 x.1) x.2))) ≤
      ∑ i, gcmForgery L (m i) + keysBound k u q := by
  classical
  have h := usersGcm_le id (record_counts hc []) Decrypted
  have h := (abs_le.mp h).2
  simp only [run_record, List.nil_append, id] at h
  have h2 : share (fun ω : (Bytes k → Equiv.Perm (Bytes 16)) × (Fin u → Equiv.Perm (Bytes 16)) =>
      Decrypted (p.answers (sideAnswer (Dir.answer ω.1) fun x => aesGcm.answer (ω.2 x.1) x.2))) ≤ ∑ i, gcmForgery L (m i) := by
    have hpos : ∀ i, 0 ≤ gcmForgery L (m i) := fun i => by rw [gcmForgery]; positivity
    refine share_prod_le (Finset.sum_nonneg fun i _ => hpos i) fun E => ?_
    have hS : ∀ (π : Equiv.Perm (Bytes 16)) a, (⟨fun π => aesGcm.enc π, fun π => aesGcm.dec π⟩ : Aead (Equiv.Perm (Bytes 16))).answer π a =
        aesGcm.answer π a := fun π a => by cases a <;> rfl
    have := users_forge (⟨fun π => aesGcm.enc π, fun π => aesGcm.dec π⟩ : Aead (Equiv.Perm (Bytes 16))) (Dir.answer E) hm hp hpos
      fun i p' hc' hp' => by simpa only [hS] using gcm_forge Empty.elim p' hL (hn i) hc' hp'
    simpa only [hS] using this
  linarith

theorem usersGcm_choice {k u : Nat} {O : Type} (p : UsersGcmAttack k u Pair O) {L : Nat} {m : Fin u → Nat} (hL : L < 2 ^ 32)
    (hn : ∀ i, m i * L < 2 ^ 64) (hm : p.Each m) (hp : ByRulesEach Pair.fst L p fun _ => []) (acc : O → Prop) :
    share (fun ω : (Bytes k → Equiv.Perm (Bytes 16)) × (Fin u → Equiv.Perm (Bytes 16)) =>
        acc (p.run (sideAnswer (Dir.answer ω.1) fun x => aesGcm.answer (ω.2 x.1) x.2.fst))) ≤
      share (fun ω : (Bytes k → Equiv.Perm (Bytes 16)) × (Fin u → Equiv.Perm (Bytes 16)) =>
        acc (p.run (sideAnswer (Dir.answer ω.1) fun x => aesGcm.answer (ω.2 x.1) x.2.snd))) + ∑ i, gcmPrivacy L (m i) := by
  classical
  refine share_prod_add fun E => ?_
  have hS : ∀ (π : Equiv.Perm (Bytes 16)) a, (⟨fun π => aesGcm.enc π, fun π => aesGcm.dec π⟩ : Aead (Equiv.Perm (Bytes 16))).answer π a =
      aesGcm.answer π a := fun π a => by cases a <;> rfl
  have h := users_choose (⟨fun π => aesGcm.enc π, fun π => aesGcm.dec π⟩ : Aead (Equiv.Perm (Bytes 16))) (Dir.answer E) hm hp acc
    (fun i p' hc' hp' => by simpa only [hS] using gcm_choose Empty.elim p' hL (hn i) hc' hp' acc) univ
  simp only [hS, chosen, Finset.mem_univ, if_true] at h
  exact h

/-- **C129.**  Whoever asks `u` users for encryptions with two messages of one length each time, and for decryptions, cannot tell which
of the messages are encrypted. -/
theorem C129_privacy {k : Nat} {O : Type} (u : Nat) (p : UsersGcmAttack k u Pair O) (L q n : Nat) (m : Fin u → Nat) (hL : L < 2 ^ 32)
    (hn : ∀ i, m i * L < 2 ^ 64) (hc : p.Counts q n) (hm : p.Each m) (hp : ByRulesEach Pair.fst L p fun _ => []) (acc : O → Prop) :
    |share (fun ω : (Bytes k → Equiv.Perm (Bytes 16)) × (Fin u → Bytes k) =>
        acc (p.run (sideAnswer (Dir.answer ω.1) fun x => (aesGcmOf k).answer (ω.1, ω.2 x.1) x.2.fst))) -
      share (fun ω : (Bytes k → Equiv.Perm (Bytes 16)) × (Fin u → Bytes k) =>
        acc (p.run (sideAnswer (Dir.answer ω.1) fun x => (aesGcmOf k).answer (ω.1, ω.2 x.1) x.2.snd)))| ≤
      ∑ i, gcmPrivacy L (m i) + 2 * keysBound k u q := by
  have hne : Nonempty (Bytes k) := ⟨⟨List.replicate k 0, List.length_replicate⟩⟩
  have a1 := abs_le.mp (usersGcm_le Pair.fst hc acc)
  have a2 := abs_le.mp (usersGcm_le Pair.snd hc acc)
  have b1 := usersGcm_choice p hL hn hm hp acc
  have b2 := usersGcm_choice p hL hn hm hp fun o => ¬ acc o
  rw [share_sub, share_sub] at b2
  rw [abs_le]
  constructor <;> linarith [a1.1, a1.2, a2.1, a2.2]

/-- One user: the bound of C117. -/
theorem C129_one (k q : Nat) : keysBound k 1 q = q / 2 ^ (8 * k) := by
  rw [keysBound]
  push_cast
  ring

/-! ## One key against all users -/

/-- The tag is sent to some users. -/
def sendAll {k u : Nat} (t : Bytes 16) : List (Fin u) → UsersGcmAttack k u Ask Unit
  | [] => .ret ()
  | i :: l => .ask (.inr (i, .dec zeroIv [] [] t)) fun _ => sendAll t l

/-- The key of zeros. -/
def zeroKey (k : Nat) : Bytes k := ⟨List.replicate k 0, List.length_replicate⟩

/-- The tag of the empty message for the key 0, sent to all users. -/
def oneForAll (k u : Nat) : UsersGcmAttack k u Ask Unit :=
  .ask (.inl (.fwd (zeroKey k) (point zeroIv 1))) fun
    | .inl t => sendAll t (List.finRange u)
    | .inr _ => .ret ()

theorem sendAll_counts {k u : Nat} (t : Bytes 16) (l : List (Fin u)) : (sendAll (k := k) t l).Counts 0 l.length := by
  induction l with
  | nil => trivial
  | cons i l ih => exact ⟨l.length, rfl, fun _ => ih⟩

theorem sendAll_each {k u : Nat} (t : Bytes 16) {l : List (Fin u)} (hl : l.Nodup) {m : Fin u → Nat} (hm : ∀ i ∈ l, m i = 1) :
    (sendAll (k := k) t l).Each m := by
  induction l generalizing m with
  | nil => trivial
  | cons i l ih =>
    obtain ⟨h1, h2⟩ := List.nodup_cons.mp hl
    refine ⟨0, hm i (List.mem_cons_self ..), fun _ => ih h2 fun j hj => ?_⟩
    have hji : j ≠ i := fun e => h1 (e ▸ hj)
    rw [Function.update_of_ne hji]
    exact hm j (List.mem_cons_of_mem _ hj)

theorem sendAll_rules {k u : Nat} (t : Bytes 16) {l : List (Fin u)} (hl : l.Nodup) {h : Fin u → List Seen} (hh : ∀ i ∈ l, h i = []) :
    ByRulesEach id 1 (sendAll (k := k) t l) h := by
  induction l generalizing h with
  | nil => trivial
  | cons i l ih =>
    obtain ⟨h1, h2⟩ := List.nodup_cons.mp hl
    refine ⟨⟨?_, by decide⟩, fun _ => ih h2 fun j hj => ?_⟩
    · rw [hh i (List.mem_cons_self ..)]
      exact List.not_mem_nil
    · have hji : j ≠ i := fun e => h1 (e ▸ hj)
      rw [Function.update_of_ne hji]
      exact hh j (List.mem_cons_of_mem _ hj)

theorem oneForAll_counts (k u : Nat) : (oneForAll k u).Counts 1 u := by
  refine ⟨0, rfl, fun r => ?_⟩
  cases r with
  | inl t =>
    have := sendAll_counts (k := k) t (List.finRange u)
    rwa [List.length_finRange] at this
  | inr s => trivial

theorem oneForAll_each (k u : Nat) : (oneForAll k u).Each fun _ => 1 := by
  intro r
  cases r with
  | inl t => exact sendAll_each t (List.nodup_finRange u) fun _ _ => rfl
  | inr s => trivial

theorem oneForAll_rules (k u : Nat) : ByRulesEach id 1 (oneForAll k u) fun _ => [] :=
  fun t => sendAll_rules t (List.nodup_finRange u) fun _ _ => rfl

/-- The tag of the empty message is the block for the counter 1. -/
theorem gTag_empty (F : Bytes 16 → Bytes 16) (iv : Bytes 12) : gTag F iv [] [] = F (point iv 1) := by
  have h : Gcm.ghash (F (point zeroIv 0)).1 (Gcm.macData [] []) = List.replicate 16 0 := by
    have e : Gcm.macData [] [] = List.replicate 16 0 := by decide
    refine Universal.el_inj (by rw [Gf128.length_ghash, List.length_replicate]) (by rw [Gf128.length_ghash]) ?_
    rw [e, Universal.ghash_block (F _).2 List.length_replicate, Universal.el_zero, zero_mul]
  refine Subtype.ext ?_
  show Spec.xor (Gcm.ghash (F (point zeroIv 0)).1 (Gcm.macData [] [])) (F (point iv 1)).1 = _
  rw [h]
  have hl := (F (point iv 1)).2
  refine List.ext_getElem (by rw [Spec.xor, List.length_zipWith, List.length_replicate, hl, Nat.min_self]) fun i h1 h2 => ?_
  simp only [Spec.xor, List.getElem_zipWith, List.getElem_replicate]
  exact BitVec.zero_xor

theorem answers_sendAll {k u : Nat} (E : Bytes k → Equiv.Perm (Bytes 16)) (ks : Fin u → Bytes k) {l : List (Fin u)} {i : Fin u} (hi : i ∈ l)
    (h : ks i = zeroKey k) :
    Decrypted ((sendAll (E (zeroKey k) (point zeroIv 1)) l).answers (sideAnswer (Dir.answer E) fun x => (aesGcmOf k).answer (E, ks x.1) x.2)) := by
  induction l with
  | nil => exact absurd hi List.not_mem_nil
  | cons j l ih =>
    by_cases hj : j = i
    · refine ⟨zeroIv, [], [], E (zeroKey k) (point zeroIv 1), gcmCt (E (zeroKey k)) zeroIv [], List.mem_cons.mpr (.inl ?_)⟩
      rw [hj]
      show _ = Sum.inr ((aesGcmOf k).answer (E, ks i) _)
      rw [aesGcmOf_answer, h]
      show _ = Sum.inr (aesGcm.answer (E (zeroKey k)) _)
      rw [Aead.answer, aesGcm_dec _ _ _ (by norm_num), if_pos (gTag_empty _ _)]
    · have hi : i ∈ l := (List.mem_cons.mp hi).resolve_left (Ne.symm hj)
      obtain ⟨iv, aad, c, t, m, hm⟩ := ih hi
      exact ⟨iv, aad, c, t, m, List.mem_cons_of_mem _ hm⟩

/-- All values are different from one. -/
theorem share_none {A : Type} [Fintype A] [DecidableEq A] (u : Nat) (a : A) :
    share (fun ks : Fin u → A => ∀ i, ks i ≠ a) = (1 - 1 / Fintype.card A) ^ u := by
  classical
  have hA : (Fintype.card A : ℚ) ≠ 0 := Nat.cast_ne_zero.mpr (Fintype.card_pos_iff.mpr ⟨a⟩).ne'
  have e : (univ.filter fun ks : Fin u → A => ∀ i, ks i ≠ a) = Fintype.piFinset fun _ : Fin u => univ.erase a := by
    ext ks
    simp [Fintype.mem_piFinset]
  have hc : (univ.filter fun ks : Fin u → A => ∀ i, ks i ≠ a).card = (Fintype.card A - 1) ^ u := by
    rw [e, Fintype.card_piFinset]
    simp [Finset.card_erase_of_mem]
  have h1 : 1 ≤ Fintype.card A := Fintype.card_pos_iff.mpr ⟨a⟩
  rw [share, Fintype.card_fun, Fintype.card_fin, Nat.cast_pow, one_sub_div hA, div_pow]
  congr 1
  rw [← Nat.cast_one, ← Nat.cast_sub h1, ← Nat.cast_pow, ← hc]
  congr!

/-- **C129.**  The number of users cannot be left out of the bound: one question to the block cipher and one to each user make a
forgery whenever one of the users has the key that was guessed, which is a share of about `u/2⁸ᵏ`. -/
theorem C129_sharp (k u : Nat) : 1 - (1 - 1 / 2 ^ (8 * k)) ^ u ≤
    share (fun ω : (Bytes k → Equiv.Perm (Bytes 16)) × (Fin u → Bytes k) =>
      Decrypted ((oneForAll k u).answers (sideAnswer (Dir.answer ω.1) fun x => (aesGcmOf k).answer (ω.1, ω.2 x.1) x.2))) := by
  classical
  have hne : Nonempty (Bytes k) := ⟨zeroKey k⟩
  have hk : (Fintype.card (Bytes k) : ℚ) = 2 ^ (8 * k) := by
    rw [card_bytes, pow_mul]
    norm_num
  have h := share_none u (zeroKey k)
  rw [hk] at h
  have h2 := share_sub fun ω : (Bytes k → Equiv.Perm (Bytes 16)) × (Fin u → Bytes k) => ∀ i, ω.2 i ≠ zeroKey k
  rw [share_snd fun ks : Fin u → Bytes k => ∀ i, ks i ≠ zeroKey k, h] at h2
  rw [← h2]
  refine share_mono fun ω hω => ?_
  push Not at hω
  obtain ⟨i, hi⟩ := hω
  obtain ⟨iv, aad, c, t, m, hm⟩ := answers_sendAll ω.1 ω.2 (List.mem_finRange i) hi
  exact ⟨iv, aad, c, t, m, List.mem_cons_of_mem _ hm⟩

/-- The attack keeps the rules. -/
example (k u : Nat) := C129_forgery u (oneForAll k u) 1 1 u (fun _ => 1) (by norm_num) (fun _ => by norm_num) (oneForAll_counts k u)
  (oneForAll_each k u) (oneForAll_rules k u)

/-- A choice between two messages for two users; the guess is that the ciphertexts are equal. -/
def gcmCompare : UsersGcmAttack 16 2 Pair Bool :=
  .ask (.inr (0, ⟨(.enc zeroIv [1] [0, 0], .enc zeroIv [1] [1, 2]), rfl, rfl, rfl⟩)) fun s =>
    .ask (.inr (1, ⟨(.enc zeroIv [1] [0, 0], .enc zeroIv [1] [3, 4]), rfl, rfl, rfl⟩)) fun r =>
      .ret (match s, r with
        | .inr (.enc _ _ c _), .inr (.enc _ _ c' _) => c = c'
        | _, _ => false)

example := C129_privacy 2 gcmCompare 3 0 2 (fun _ => 1) (by norm_num) (fun _ => by norm_num) ⟨1, rfl, fun _ => ⟨0, rfl, fun _ => trivial⟩⟩
  ⟨0, rfl, fun _ => ⟨0, rfl, fun _ => trivial⟩⟩
  ⟨⟨fun _ _ _ h => absurd h List.not_mem_nil, by decide⟩, fun _ => ⟨⟨fun _ _ _ h => absurd h List.not_mem_nil, by decide⟩, fun _ => trivial⟩⟩
  (fun b => b = true)

/-- AES-128: with `2³⁰` users and `2⁹⁰` questions, the bound for keys is `2⁻⁸`, although it is `2⁻³⁸` for one user. -/
example : keysBound 16 (2 ^ 30) (2 ^ 90) < 1 / 2 ^ 7 ∧ 1 / 2 ^ 8 ≤ keysBound 16 (2 ^ 30) (2 ^ 90) ∧ keysBound 16 1 (2 ^ 90) = 1 / 2 ^ 38 := by
  simp only [keysBound]
  norm_num

end Hacspec.Props
