import Verif.Lemmas.Ideal.Sessions
import Verif.Props.Extracts
import Verif.Props.Totals
import Verif.Props.Users
import Verif.Props.UsersGcm

/-! # C134: sessions with keys that HKDF derives from one secret -/

namespace Hacspec.Props

open Spec Hacspec.Ideal Finset

theorem macAnswer_side {Z : Type} (E : Bytes 64 → Equiv.Perm (Words 32 8)) (mac : Z → M (List U8)) :
    macAnswer E mac = sideAnswer (Dir.answer E) mac := by
  funext x
  cases x <;> rfl

theorem randomBytes_one {ℓ κ : Nat} (hκ : κ ≤ 32 * 1) (F : Infos ℓ × Fin 1 → Bytes 32) (info : Infos ℓ) :
    randomBytes F (info, ⟨κ, hκ⟩) = (F (info, 0)).1.take κ := by
  rw [randomBytes, show List.finRange 1 = [0] from rfl, List.map_singleton, List.flatten_singleton]

section

variable {Ω : Type} [Fintype Ω] [Nonempty Ω] (ikm : Ω → List U8) (hm : ∀ w, 0 < (ikm w).length ∧ (ikm w).length ≤ 55) (ε : ℚ)
  (hε : ∀ m, share (fun w => ikm w = m) ≤ ε) (salt : List U8) (hs : salt.length ≤ 64) {ℓ : Nat} (hℓ : ℓ < 2 ^ 54)
  {u : Nat} {infos : Fin u → Infos ℓ} (hi : Function.Injective infos) {κ : Nat} (hκ : κ ≤ 32)
  {P D X Q O : Type} [Fintype P] [Nonempty P] (g : P → D → X) (ans : P → Bytes κ → Q → Seen)

/-- The answers in sessions with derived keys. -/
def sessionAnswer (infos : Fin u → Infos ℓ) (κ : Nat) (g : D → X) (ans : Bytes κ → Q → Seen) (E : Bytes 64 → Equiv.Perm (Words 32 8)) (secret : List U8) :
    (Dir (Bytes 64) (Words 32 8) ⊕ D) ⊕ Fin u × Q → (Words 32 8 ⊕ X) ⊕ Seen :=
  sideAnswer (sideAnswer (Dir.answer E) g) fun x =>
    withKey (extractExpand (Hacspec.Ideal.extract E) (Hacspec.Ideal.expand E) salt secret (infos x.1).1 κ) fun k => ans k x.2

include hm hε hs hℓ hi hκ in
theorem sessions_one (g : D → X) (ans : Bytes κ → Q → Seen) {p : SessionsAttack D X u Q O} {q n : Nat} (hc : p.Counts q n) (hT : q + u * ℓ < 2 ^ 256) (acc : O → Prop) :
    |share (fun ω : (Bytes 64 → Equiv.Perm (Words 32 8)) × Ω => acc (p.run (sessionAnswer salt infos κ g ans ω.1 (ikm ω.2)))) -
      share (fun ω : (Bytes 64 → Equiv.Perm (Words 32 8)) × (Fin u → Bytes κ) =>
        acc (p.run (sideAnswer (sideAnswer (Dir.answer ω.1) g) fun x => ans (ω.2 x.1) x.2)))| ≤ sessionsBound q u ℓ ε := by
  classical
  let ws : List (Wanted ℓ 1) := List.ofFn fun i => (infos i, ⟨κ, by omega⟩)
  let x₀ : Words 32 8 := ⟨List.replicate 8 0, List.length_replicate⟩
  let A : KdfAttack ℓ 1 O := askKeys (.error .panic) ws fun l =>
    inside x₀ g (fun x : Fin u × Q => withKey (l.getD x.1 (.error .panic)) fun k => ans k x.2) p
  have hA : A.Counts q u := by
    have := askKeys_counts (Except.error Fail.panic) ws (fun l => inside x₀ g (fun x : Fin u × Q => withKey (l.getD x.1 (.error .panic)) fun k => ans k x.2) p)
      (q := q) fun l => inside_counts x₀ g _ hc
    rwa [List.length_ofFn] at this
  have hr : ∀ (E : Bytes 64 → Equiv.Perm (Words 32 8)) (mac : Wanted ℓ 1 → M (List U8)), A.run (macAnswer E mac) =
      p.run (sideAnswer (sideAnswer (Dir.answer E) g) fun x => withKey (mac (infos x.1, ⟨κ, by omega⟩)) fun k => ans k x.2) := by
    intro E mac
    rw [macAnswer_side, run_askKeys, run_inside]
    congr 2
    funext x
    rw [List.map_ofFn, List.getD_eq_getElem?_getD, List.getElem?_ofFn, dif_pos x.1.2]
    rfl
  have h := C127_prf ikm hm ε hε salt hs (by omega) hℓ A q u hA (by rw [mul_one u]; exact hT) acc
  rw [mul_one u] at h
  refine le_trans (le_of_eq ?_) h
  congr 2
  · refine share_congr fun ω => ?_
    rw [hr]
    rfl
  · rw [share_prod, share_prod]
    congr 1
    refine Finset.sum_congr rfl fun E _ => ?_
    have hz : Function.Injective fun i : Fin u => (infos i, (0 : Fin 1)) := fun i j h => hi (Prod.mk.inj h).1
    have h1 := share_take hκ fun ks : Fin u → Bytes κ => acc (p.run (sideAnswer (sideAnswer (Dir.answer E) g) fun x => ans (ks x.1) x.2))
    have h2 := share_points hz fun F : Fin u → Bytes 32 => acc (p.run (sideAnswer (sideAnswer (Dir.answer E) g) fun x : Fin u × Q =>
      ans ⟨(F x.1).1.take κ, by rw [List.length_take, (F x.1).2]; omega⟩ x.2))
    rw [← h1, ← h2]
    refine share_congr fun F => ?_
    rw [hr]
    have e : (fun x : Fin u × Q => withKey (.ok (randomBytes F (infos x.1, ⟨κ, by omega⟩))) fun k => ans k x.2) = fun x : Fin u × Q =>
        ans ⟨(F (infos x.1, 0)).1.take κ, by rw [List.length_take, (F (infos x.1, 0)).2]; omega⟩ x.2 := by
      funext x
      have hl : (randomBytes F (infos x.1, ⟨κ, by omega⟩)).length = κ := by
        rw [randomBytes_one, List.length_take, (F (infos x.1, 0)).2]
        omega
      rw [withKey, dif_pos hl]
      congr 2
      exact randomBytes_one _ F (infos x.1)
    rw [e]

include hm hε hs hℓ hi hκ in
/-- The derived keys are replaced by random ones. -/
theorem sessions_abs {p : SessionsAttack D X u Q O} {q n : Nat} (hc : p.Counts q n) (hT : q + u * ℓ < 2 ^ 256) (acc : O → Prop) :
    |share (fun ω : P × ((Bytes 64 → Equiv.Perm (Words 32 8)) × Ω) =>
        acc (p.run (sessionAnswer salt infos κ (g ω.1) (ans ω.1) ω.2.1 (ikm ω.2.2)))) -
      share (fun ω : (Bytes 64 → Equiv.Perm (Words 32 8)) × (P × (Fin u → Bytes κ)) =>
        acc ((absorb (Dir.answer ω.1) p).run (sideAnswer (g ω.2.1) fun x => ans ω.2.1 (ω.2.2 x.1) x.2)))| ≤ sessionsBound q u ℓ ε := by
  have e := share_equiv (Ω := P × ((Bytes 64 → Equiv.Perm (Words 32 8)) × (Fin u → Bytes κ)))
    ⟨fun ω => (ω.2.1, ω.1, ω.2.2), fun ω => (ω.2.1, ω.1, ω.2.2), fun _ => rfl, fun _ => rfl⟩
    fun ω : (Bytes 64 → Equiv.Perm (Words 32 8)) × (P × (Fin u → Bytes κ)) =>
        acc ((absorb (Dir.answer ω.1) p).run (sideAnswer (g ω.2.1) fun x => ans ω.2.1 (ω.2.2 x.1) x.2))
  rw [← e]
  simp only [Equiv.coe_fn_mk, run_absorb]
  have h := fun a => abs_le.mp (sessions_one ikm hm ε hε salt hs hℓ hi hκ (g a) (ans a) hc hT acc)
  have h1 := share_prod_add (A := P) (P := fun ω : P × ((Bytes 64 → Equiv.Perm (Words 32 8)) × Ω) =>
        acc (p.run (sessionAnswer salt infos κ (g ω.1) (ans ω.1) ω.2.1 (ikm ω.2.2))))
    (Q := fun ω : P × ((Bytes 64 → Equiv.Perm (Words 32 8)) × (Fin u → Bytes κ)) =>
        acc (p.run (sideAnswer (sideAnswer (Dir.answer ω.2.1) (g ω.1)) fun x => ans ω.1 (ω.2.2 x.1) x.2)))
    (ε := sessionsBound q u ℓ ε) fun a => by linarith [(h a).2]
  have h2 := share_prod_add (A := P) (Q := fun ω : P × ((Bytes 64 → Equiv.Perm (Words 32 8)) × Ω) =>
        acc (p.run (sessionAnswer salt infos κ (g ω.1) (ans ω.1) ω.2.1 (ikm ω.2.2))))
    (P := fun ω : P × ((Bytes 64 → Equiv.Perm (Words 32 8)) × (Fin u → Bytes κ)) =>
        acc (p.run (sideAnswer (sideAnswer (Dir.answer ω.2.1) (g ω.1)) fun x => ans ω.1 (ω.2.2 x.1) x.2)))
    (ε := sessionsBound q u ℓ ε) fun a => by linarith [(h a).1]
  rw [abs_le]
  constructor <;> linarith

end

/-! ## ChaCha20-Poly1305 -/

/-- **C134.**  The keys of `u` sessions of ChaCha20-Poly1305 are derived with `extract` and `expand` from one secret, of which no value has
more than the share `ε`, with different strings `infos`.  Whoever asks the cipher inside SHA-256 and the permutation inside ChaCha20 `q`
times altogether, and the sessions `n` times by the rules, has a ciphertext decrypted that the session did not make for at most this
share of all ciphers, permutations and secrets. -/
theorem C134_chacha_forgery {Ω : Type} [Fintype Ω] [Nonempty Ω] (ikm : Ω → List U8) (hm : ∀ w, 0 < (ikm w).length ∧ (ikm w).length ≤ 55)
    (ε : ℚ) (hε : ∀ m, share (fun w => ikm w = m) ≤ ε) (salt : List U8) (hs : salt.length ≤ 64) {ℓ : Nat} (hℓ : ℓ < 2 ^ 54) (u : Nat)
    (infos : Fin u → Infos ℓ) (hi : Function.Injective infos) {O : Type} (p : SessionsAttack (Dir Unit (Words 32 16)) (Words 32 16) u Ask O)
    (L q n : Nat) (m : Fin u → Nat) (hL : L < 2 ^ 32) (hT : q + u * ℓ < 2 ^ 256) (hc : p.Counts q n) (he : p.Each m)
    (hp : ByRulesEach id L p fun _ => []) :
    share (fun ω : Equiv.Perm (Words 32 16) × ((Bytes 64 → Equiv.Perm (Words 32 8)) × Ω) =>
        Decrypted (p.answers (sessionAnswer salt infos 32 (Dir.answer fun _ => ω.1) (fun k a => chachaPolyOf.answer (ω.1, k) a) ω.2.1 (ikm ω.2.2)))) ≤
      ∑ i, chachaForgery L (m i) + usersBound u q (n * L) + sessionsBound q u ℓ ε := by
  have h := (abs_le.mp (sessions_abs ikm hm ε hε salt hs hℓ hi (le_refl 32) (P := Equiv.Perm (Words 32 16)) (fun π => Dir.answer fun _ => π)
    (fun π k a => chachaPolyOf.answer (π, k) a) (record_counts hc []) hT Decrypted)).2
  simp only [run_absorb, run_record, List.nil_append] at h
  simp only [← decrypted_absorb] at h
  have hpos : 0 ≤ ∑ i, chachaForgery L (m i) + usersBound u q (n * L) :=
    le_trans (share_nonneg _) (C128_forgery u (absorb (Dir.answer fun _ => 1) p) L q n m hL (absorb_counts _ hc) (absorb_each _ he) (absorb_rules _ id L hp))
  have h2 := share_prod_le (P := fun ω : (Bytes 64 → Equiv.Perm (Words 32 8)) × (Equiv.Perm (Words 32 16) × (Fin u → Bytes 32)) =>
    Decrypted ((absorb (Dir.answer ω.1) p).answers (sideAnswer (Dir.answer fun _ => ω.2.1) fun x => chachaPolyOf.answer (ω.2.1, ω.2.2 x.1) x.2)))
    hpos fun E => by
      have := C128_forgery u (absorb (Dir.answer E) p) L q n m hL (absorb_counts _ hc) (absorb_each _ he) (absorb_rules _ id L hp)
      simp only [bothAnswer] at this
      exact this
  linarith

/-- **C134.**  The same attacks cannot tell which of two messages of one length are encrypted in the sessions. -/
theorem C134_chacha_privacy {Ω : Type} [Fintype Ω] [Nonempty Ω] (ikm : Ω → List U8) (hm : ∀ w, 0 < (ikm w).length ∧ (ikm w).length ≤ 55)
    (ε : ℚ) (hε : ∀ m, share (fun w => ikm w = m) ≤ ε) (salt : List U8) (hs : salt.length ≤ 64) {ℓ : Nat} (hℓ : ℓ < 2 ^ 54) (u : Nat)
    (infos : Fin u → Infos ℓ) (hi : Function.Injective infos) {O : Type} (p : SessionsAttack (Dir Unit (Words 32 16)) (Words 32 16) u Pair O)
    (L q n : Nat) (m : Fin u → Nat) (hL : L < 2 ^ 32) (hT : q + u * ℓ < 2 ^ 256) (hc : p.Counts q n) (he : p.Each m)
    (hp : ByRulesEach Pair.fst L p fun _ => []) (acc : O → Prop) :
    |share (fun ω : Equiv.Perm (Words 32 16) × ((Bytes 64 → Equiv.Perm (Words 32 8)) × Ω) =>
        acc (p.run (sessionAnswer salt infos 32 (Dir.answer fun _ => ω.1) (fun k a => chachaPolyOf.answer (ω.1, k) a.fst) ω.2.1 (ikm ω.2.2)))) -
      share (fun ω : Equiv.Perm (Words 32 16) × ((Bytes 64 → Equiv.Perm (Words 32 8)) × Ω) =>
        acc (p.run (sessionAnswer salt infos 32 (Dir.answer fun _ => ω.1) (fun k a => chachaPolyOf.answer (ω.1, k) a.snd) ω.2.1 (ikm ω.2.2))))| ≤
      2 * (∑ i, chachaForgery L (m i) + usersBound u q (n * L) + sessionsBound q u ℓ ε) := by
  have a1 := abs_le.mp (sessions_abs ikm hm ε hε salt hs hℓ hi (le_refl 32) (P := Equiv.Perm (Words 32 16)) (fun π => Dir.answer fun _ => π)
    (fun π k (a : Pair) => chachaPolyOf.answer (π, k) a.fst) hc hT acc)
  have a2 := abs_le.mp (sessions_abs ikm hm ε hε salt hs hℓ hi (le_refl 32) (P := Equiv.Perm (Words 32 16)) (fun π => Dir.answer fun _ => π)
    (fun π k (a : Pair) => chachaPolyOf.answer (π, k) a.snd) hc hT acc)
  have h := fun E => abs_le.mp (C128_privacy u (absorb (Dir.answer E) p) L q n m hL (absorb_counts _ hc) (absorb_each _ he) (absorb_rules _ Pair.fst L hp) acc)
  simp only [bothAnswer] at h
  have b1 := share_prod_add (P := fun ω : (Bytes 64 → Equiv.Perm (Words 32 8)) × (Equiv.Perm (Words 32 16) × (Fin u → Bytes 32)) =>
      acc ((absorb (Dir.answer ω.1) p).run (sideAnswer (Dir.answer fun _ => ω.2.1) fun x => chachaPolyOf.answer (ω.2.1, ω.2.2 x.1) x.2.fst)))
    (Q := fun ω : (Bytes 64 → Equiv.Perm (Words 32 8)) × (Equiv.Perm (Words 32 16) × (Fin u → Bytes 32)) =>
      acc ((absorb (Dir.answer ω.1) p).run (sideAnswer (Dir.answer fun _ => ω.2.1) fun x => chachaPolyOf.answer (ω.2.1, ω.2.2 x.1) x.2.snd)))
    (ε := 2 * (∑ i, chachaForgery L (m i) + usersBound u q (n * L))) fun E => sub_le_iff_le_add'.mp (h E).2
  have b2 := share_prod_add (Q := fun ω : (Bytes 64 → Equiv.Perm (Words 32 8)) × (Equiv.Perm (Words 32 16) × (Fin u → Bytes 32)) =>
      acc ((absorb (Dir.answer ω.1) p).run (sideAnswer (Dir.answer fun _ => ω.2.1) fun x => chachaPolyOf.answer (ω.2.1, ω.2.2 x.1) x.2.fst)))
    (P := fun ω : (Bytes 64 → Equiv.Perm (Words 32 8)) × (Equiv.Perm (Words 32 16) × (Fin u → Bytes 32)) =>
      acc ((absorb (Dir.answer ω.1) p).run (sideAnswer (Dir.answer fun _ => ω.2.1) fun x => chachaPolyOf.answer (ω.2.1, ω.2.2 x.1) x.2.snd)))
    (ε := 2 * (∑ i, chachaForgery L (m i) + usersBound u q (n * L))) fun E => neg_le_sub_iff_le_add.mp (h E).1
  rw [abs_le]
  constructor <;> linarith [a1.1, a1.2, a2.1, a2.2]

/-! ## AES-GCM -/

/-- **C134.**  The same for AES-GCM with keys of `k` bytes: forgeries. -/
theorem C134_gcm_forgery {Ω : Type} [Fintype Ω] [Nonempty Ω] (ikm : Ω → List U8) (hm : ∀ w, 0 < (ikm w).length ∧ (ikm w).length ≤ 55)
    (ε : ℚ) (hε : ∀ m, share (fun w => ikm w = m) ≤ ε) (salt : List U8) (hs : salt.length ≤ 64) {ℓ : Nat} (hℓ : ℓ < 2 ^ 54) (u : Nat)
    (infos : Fin u → Infos ℓ) (hi : Function.Injective infos) {k : Nat} (hk : k ≤ 32) {O : Type}
    (p : SessionsAttack (Dir (Bytes k) (Bytes 16)) (Bytes 16) u Ask O) (L q n : Nat) (m : Fin u → Nat) (hL : L < 2 ^ 32)
    (hn : ∀ i, m i * L < 2 ^ 64) (hT : q + u * ℓ < 2 ^ 256) (hc : p.Counts q n) (he : p.Each m) (hp : ByRulesEach id L p fun _ => []) :
    share (fun ω : (Bytes k → Equiv.Perm (Bytes 16)) × ((Bytes 64 → Equiv.Perm (Words 32 8)) × Ω) =>
        Decrypted (p.answers (sessionAnswer salt infos k (Dir.answer ω.1) (fun k' a => (aesGcmOf k).answer (ω.1, k') a) ω.2.1 (ikm ω.2.2)))) ≤
      ∑ i, gcmForgery L (m i) + keysBound k u q + sessionsBound q u ℓ ε := by
  have h := (abs_le.mp (sessions_abs ikm hm ε hε salt hs hℓ hi hk (P := Bytes k → Equiv.Perm (Bytes 16)) (fun E => Dir.answer E)
    (fun E k' a => (aesGcmOf k).answer (E, k') a) (record_counts hc []) hT Decrypted)).2
  simp only [run_absorb, run_record, List.nil_append] at h
  simp only [← decrypted_absorb] at h
  have hpos : 0 ≤ ∑ i, gcmForgery L (m i) + keysBound k u q :=
    le_trans (share_nonneg _) (C129_forgery u (absorb (Dir.answer fun _ => 1) p) L q n m hL hn (absorb_counts _ hc) (absorb_each _ he) (absorb_rules _ id L hp))
  have h2 := share_prod_le (P := fun ω : (Bytes 64 → Equiv.Perm (Words 32 8)) × ((Bytes k → Equiv.Perm (Bytes 16)) × (Fin u → Bytes k)) =>
    Decrypted ((absorb (Dir.answer ω.1) p).answers (sideAnswer (Dir.answer ω.2.1) fun x => (aesGcmOf k).answer (ω.2.1, ω.2.2 x.1) x.2)))
    hpos fun E => by
      have := C129_forgery u (absorb (Dir.answer E) p) L q n m hL hn (absorb_counts _ hc) (absorb_each _ he) (absorb_rules _ id L hp)
      exact this
  linarith

/-- **C134.**  The same for AES-GCM with keys of `k` bytes: messages. -/
theorem C134_gcm_privacy {Ω : Type} [Fintype Ω] [Nonempty Ω] (ikm : Ω → List U8) (hm : ∀ w, 0 < (ikm w).length ∧ (ikm w).length ≤ 55)
    (ε : ℚ) (hε : ∀ m, share (fun w => ikm w = m) ≤ ε) (salt : List U8) (hs : salt.length ≤ 64) {ℓ : Nat} (hℓ : ℓ < 2 ^ 54) (u : Nat)
    (infos : Fin u → Infos ℓ) (hi : Function.Injective infos) {k : Nat} (hk : k ≤ 32) {O : Type}
    (p : SessionsAttack (Dir (Bytes k) (Bytes 16)) (Bytes 16) u Pair O) (L q n : Nat) (m : Fin u → Nat) (hL : L < 2 ^ 32)
    (hn : ∀ i, m i * L < 2 ^ 64) (hT : q + u * ℓ < 2 ^ 256) (hc : p.Counts q n) (he : p.Each m) (hp : ByRulesEach Pair.fst L p fun _ => [])
    (acc : O → Prop) :
    |share (fun ω : (Bytes k → Equiv.Perm (Bytes 16)) × ((Bytes 64 → Equiv.Perm (Words 32 8)) × Ω) =>
        acc (p.run (sessionAnswer salt infos k (Dir.answer ω.1) (fun k' a => (aesGcmOf k).answer (ω.1, k') a.fst) ω.2.1 (ikm ω.2.2)))) -
      share (fun ω : (Bytes k → Equiv.Perm (Bytes 16)) × ((Bytes 64 → Equiv.Perm (Words 32 8)) × Ω) =>
        acc (p.run (sessionAnswer salt infos k (Dir.answer ω.1) (fun k' a => (aesGcmOf k).answer (ω.1, k') a.snd) ω.2.1 (ikm ω.2.2))))| ≤
      ∑ i, gcmPrivacy L (m i) + 2 * keysBound k u q + 2 * sessionsBound q u ℓ ε := by
  have a1 := abs_le.mp (sessions_abs ikm hm ε hε salt hs hℓ hi hk (P := Bytes k → Equiv.Perm (Bytes 16)) (fun E => Dir.answer E)
    (fun E k' (a : Pair) => (aesGcmOf k).answer (E, k') a.fst) hc hT acc)
  have a2 := abs_le.mp (sessions_abs ikm hm ε hε salt hs hℓ hi hk (P := Bytes k → Equiv.Perm (Bytes 16)) (fun E => Dir.answer E)
    (fun E k' (a : Pair) => (aesGcmOf k).answer (E, k') a.snd) hc hT acc)
  have h := fun E => abs_le.mp (C129_privacy u (absorb (Dir.answer E) p) L q n m hL hn (absorb_counts _ hc) (absorb_each _ he) (absorb_rules _ Pair.fst L hp) acc)
  have b1 := share_prod_add (P := fun ω : (Bytes 64 → Equiv.Perm (Words 32 8)) × ((Bytes k → Equiv.Perm (Bytes 16)) × (Fin u → Bytes k)) =>
      acc ((absorb (Dir.answer ω.1) p).run (sideAnswer (Dir.answer ω.2.1) fun x => (aesGcmOf k).answer (ω.2.1, ω.2.2 x.1) x.2.fst)))
    (Q := fun ω : (Bytes 64 → Equiv.Perm (Words 32 8)) × ((Bytes k → Equiv.Perm (Bytes 16)) × (Fin u → Bytes k)) =>
      acc ((absorb (Dir.answer ω.1) p).run (sideAnswer (Dir.answer ω.2.1) fun x => (aesGcmOf k).answer (ω.2.1, ω.2.2 x.1) x.2.snd)))
    (ε := ∑ i, gcmPrivacy L (m i) + 2 * keysBound k u q) fun E => sub_le_iff_le_add'.mp (h E).2
  have b2 := share_prod_add (Q := fun ω : (Bytes 64 → Equiv.Perm (Words 32 8)) × ((Bytes k → Equiv.Perm (Bytes 16)) × (Fin u → Bytes k)) =>
      acc ((absorb (Dir.answer ω.1) p).run (sideAnswer (Dir.answer ω.2.1) fun x => (aesGcmOf k).answer (ω.2.1, ω.2.2 x.1) x.2.fst)))
    (P := fun ω : (Bytes 64 → Equiv.Perm (Words 32 8)) × ((Bytes k → Equiv.Perm (Bytes 16)) × (Fin u → Bytes k)) =>
      acc ((absorb (Dir.answer ω.1) p).run (sideAnswer (Dir.answer ω.2.1) fun x => (aesGcmOf k).answer (ω.2.1, ω.2.2 x.1) x.2.snd)))
    (ε := ∑ i, gcmPrivacy L (m i) + 2 * keysBound k u q) fun E => neg_le_sub_iff_le_add.mp (h E).1
  rw [abs_le]
  constructor <;> linarith [a1.1, a1.2, a2.1, a2.2]

/-! ## The code -/

/-- What a session answers to a request for encryption. -/
def encSeen (iv : Bytes 12) (aad : List U8) : M (List U8 × List U8) → Seen
  | .ok (c, t) => .enc iv aad c t
  | .error _ => .failed

/-- What a session answers to a request for decryption. -/
def decSeen (iv : Bytes 12) (aad c : List U8) (t : Bytes 16) : M (Option (List U8)) → Seen
  | .ok r => .dec iv aad c t r
  | .error _ => .failed

theorem sessions_key {E : Bytes 64 → Equiv.Perm (Words 32 8)} (hE : ∀ (salt ikm info : List U8) (l : Nat), salt.length ≤ 64 →
      64 + ikm.length < 2 ^ 61 → 97 + info.length < 2 ^ 61 → l ≤ 8128 →
      extractExpand (Hacspec.Ideal.extract E) (Hacspec.Ideal.expand E) salt ikm info l =
        extractExpand Hacspec.Hkdf.extract Hacspec.Hkdf.expand salt ikm info l)
    {salt secret info : List U8} {κ : Nat} (hs : salt.length ≤ 64) (hm : 64 + secret.length < 2 ^ 61) (hi : 97 + info.length < 2 ^ 61)
    (hκ : κ ≤ 32) : ∃ (prk : List U8) (k : Bytes κ), Hacspec.Hkdf.extract salt secret = .ok prk ∧ Hacspec.Hkdf.expand prk info κ = .ok k.1 ∧
      ∀ ans : Bytes κ → Seen, withKey (extractExpand (Hacspec.Ideal.extract E) (Hacspec.Ideal.expand E) salt secret info κ) ans = ans k := by
  obtain ⟨prk, h1, hl⟩ := (C58_hmac salt secret (by omega) hm).2
  obtain ⟨k, h2, hk⟩ := (C58_hkdf_expand prk info κ (by omega) hi).mpr (by omega)
  refine ⟨prk, ⟨k, hk⟩, h1, h2, fun ans => ?_⟩
  rw [hE salt secret info κ hs hm hi (by omega), extractExpand, h1, bind_ok, h2, withKey, dif_pos hk]

/-- **C134.**  `schedule` and `shuffle` are one of the ciphers, the rounds of ChaCha20 one of the permutations: with them, a session
answers with `extract`, `expand` and `encrypt` or `decrypt` one after another. -/
theorem C134_chacha_code : ∃ (E : Bytes 64 → Equiv.Perm (Words 32 8)) (π : Equiv.Perm (Words 32 16)),
    (∀ b s, (Hacspec.Sha2.schedule b.1 >>= fun ws => Hacspec.Sha2.shuffle ws s.1) = .ok (E b s).1) ∧
    (∀ s, Hacspec.ChaCha.rounds s.1 = .ok (π s).1) ∧
    ∀ {ℓ u : Nat}, ℓ < 2 ^ 54 → ∀ (salt secret : List U8), salt.length ≤ 64 → secret.length ≤ 55 → ∀ (infos : Fin u → Infos ℓ) (i : Fin u)
      (iv : Bytes 12) (aad m c : List U8) (t : Bytes 16),
      sessionAnswer salt infos 32 (Dir.answer fun _ : Unit => π) (fun k a => chachaPolyOf.answer (π, k) a) E secret (.inr (i, .enc iv aad m)) =
        .inr (encSeen iv aad (do
          let prk ← Hacspec.Hkdf.extract salt secret
          let k ← Hacspec.Hkdf.expand prk (infos i).1 32
          Hacspec.ChaChaPoly.encrypt k iv.1 aad m)) ∧
      sessionAnswer salt infos 32 (Dir.answer fun _ : Unit => π) (fun k a => chachaPolyOf.answer (π, k) a) E secret (.inr (i, .dec iv aad c t)) =
        .inr (decSeen iv aad c t (do
          let prk ← Hacspec.Hkdf.extract salt secret
          let k ← Hacspec.Hkdf.expand prk (infos i).1 32
          Hacspec.ChaChaPoly.decrypt k iv.1 aad c t.1)) := by
  obtain ⟨E, h1, h2⟩ := C127_code
  obtain ⟨π, h3, h4⟩ := C116_code
  refine ⟨E, π, h1, h3, fun {ℓ u} hℓ salt secret hs hm infos i iv aad m c t => ?_⟩
  have hi := (infos i).2.1
  obtain ⟨prk, k, e1, e2, e3⟩ := sessions_key h2 (secret := secret) (info := (infos i).1) hs (by omega) (by omega) (le_refl 32)
  constructor
  · show Sum.inr (withKey _ _) = _
    rw [e3, e1, bind_ok, e2, bind_ok, ← (h4 k iv aad m c t).1]
    rfl
  · show Sum.inr (withKey _ _) = _
    rw [e3, e1, bind_ok, e2, bind_ok, ← (h4 k iv aad m c t).2]
    rfl

/-- **C134.**  The same for AES-GCM: AES is one of the block ciphers. -/
theorem C134_gcm_code (alg : Hacspec.Aes.Variant) :
    ∃ (E : Bytes 64 → Equiv.Perm (Words 32 8)) (F : Bytes (4 * Hacspec.Aes.nk alg) → Equiv.Perm (Bytes 16)),
    (∀ b s, (Hacspec.Sha2.schedule b.1 >>= fun ws => Hacspec.Sha2.shuffle ws s.1) = .ok (E b s).1) ∧
    (∀ key x, Hacspec.Aes.encryptBlock key.1 x.1 (Hacspec.Aes.nk alg) (Hacspec.Aes.nr alg) alg = .ok (F key x).1) ∧
    4 * Hacspec.Aes.nk alg ≤ 32 ∧
    ∀ {ℓ u : Nat}, ℓ < 2 ^ 54 → ∀ (salt secret : List U8), salt.length ≤ 64 → secret.length ≤ 55 → ∀ (infos : Fin u → Infos ℓ) (i : Fin u)
      (iv : Bytes 12) (aad m c : List U8) (t : Bytes 16),
      sessionAnswer salt infos (4 * Hacspec.Aes.nk alg) (Dir.answer F) (fun k a => (aesGcmOf _).answer (F, k) a) E secret (.inr (i, .enc iv aad m)) =
        .inr (encSeen iv aad (do
          let prk ← Hacspec.Hkdf.extract salt secret
          let k ← Hacspec.Hkdf.expand prk (infos i).1 (4 * Hacspec.Aes.nk alg)
          Hacspec.AesGcm.encrypt k iv.1 aad m alg)) ∧
      sessionAnswer salt infos (4 * Hacspec.Aes.nk alg) (Dir.answer F) (fun k a => (aesGcmOf _).answer (F, k) a) E secret (.inr (i, .dec iv aad c t)) =
        .inr (decSeen iv aad c t (do
          let prk ← Hacspec.Hkdf.extract salt secret
          let k ← Hacspec.Hkdf.expand prk (infos i).1 (4 * Hacspec.Aes.nk alg)
          Hacspec.AesGcm.decrypt k iv.1 aad c t.1 alg)) := by
  obtain ⟨E, h1, h2⟩ := C127_code
  obtain ⟨F, h3, h4⟩ := C117_code alg
  have hk : 4 * Hacspec.Aes.nk alg ≤ 32 := by cases alg <;> decide
  refine ⟨E, F, h1, h3, hk, fun {ℓ u} hℓ salt secret hs hm infos i iv aad m c t => ?_⟩
  have hi := (infos i).2.1
  obtain ⟨prk, k, e1, e2, e3⟩ := sessions_key h2 (secret := secret) (info := (infos i).1) hs (by omega) (by omega) hk
  constructor
  · show Sum.inr (withKey _ _) = _
    rw [e3, e1, bind_ok, e2, bind_ok, ← (h4 k iv aad m c t).1]
    rfl
  · show Sum.inr (withKey _ _) = _
    rw [e3, e1, bind_ok, e2, bind_ok, ← (h4 k iv aad m c t).2]
    rfl

/-! ## Secrets -/

/-- **C134.**  The common secret that `scalarmult` returns for a random secret and a public key is such a secret, for whoever does not see
the public key of the random secret. -/
theorem C134_x25519 (t : Bytes 32) (k : List U8) (hk : Curve25519.scalarmult t.val nine = .ok k) (ikm : Bytes 32 → List U8)
    (hi : ∀ s : Bytes 32, Curve25519.scalarmult s.val k = .ok (ikm s)) :
    (∀ s, 0 < (ikm s).length ∧ (ikm s).length ≤ 55) ∧ ∀ m, share (fun s => ikm s = m) ≤ 2 / 2 ^ 251 := by
  let B : Base25519 := ⟨_, base25519⟩
  have hQ : X25519.order • X25519.scalar t.val • B.point = 0 := by
    rw [← mul_nsmul, mul_comm, mul_nsmul, B.order, nsmul_zero]
  have e : ∀ s : Bytes 32, ikm s = leBytes 32 (X25519.u (X25519.scalar s.val • X25519.scalar t.val • B.point)).val := by
    intro s
    obtain ⟨k', h1, -, h2⟩ := C126_x25519_keys B t s
    obtain rfl := Except.ok.inj (hk.symm.trans h1)
    rw [mul_nsmul] at h2
    exact Except.ok.inj ((hi s).symm.trans h2)
  refine ⟨fun s => by rw [e, length_leBytes]; decide, fun m => ?_⟩
  refine (le_of_eq (share_congr fun s => ?_)).trans (share_secret hQ (B.smul_ne t) m)
  rw [e]

/-! ## Examples -/

/-- The bytes of a random key are such a secret. -/
theorem random_guess (m : List U8) : share (fun w : Bytes 32 => w.1 = m) ≤ 1 / 2 ^ 256 := by
  refine (share_le (c := 1) fun s h => Finset.card_le_one.mpr fun w hw w' hw' => Subtype.ext ((h w hw).trans (h w' hw').symm)).trans ?_
  rw [card_key]
  norm_num

/-- The strings `0` and `1`. -/
def twoInfos (i : Fin 2) : Infos 1 := ⟨[BitVec.ofNat 8 i.1], by rw [List.length_singleton]; decide, by rw [List.length_singleton]; decide⟩

theorem twoInfos_inj : Function.Injective twoInfos := by
  intro i j h
  have h := List.head_eq_of_cons_eq (congrArg Subtype.val h)
  revert i j
  decide

/-- The cipher is asked, a session encrypts, and the ciphertext is sent to the other session. -/
def crossAttack : SessionsAttack (Dir Unit (Words 32 16)) (Words 32 16) 2 Ask Unit :=
  .ask (.inl (.inl (.fwd ⟨List.replicate 64 0, List.length_replicate⟩ ⟨List.replicate 8 0, List.length_replicate⟩))) fun _ =>
    .ask (.inr (0, .enc zeroIv [1] [2, 3, 4])) fun
      | .inr (.enc iv aad c t) =>
        if h : t.length = 16 ∧ blocks aad c ≤ 3 then .ask (.inr (1, .dec iv aad c ⟨t, h.1⟩)) fun _ => .ret () else .ret ()
      | _ => .ret ()

theorem crossAttack_counts : crossAttack.Counts 1 2 := by
  refine ⟨0, rfl, fun _ => ⟨1, rfl, fun s => ?_⟩⟩
  match s with
  | .inl _ | .inr (.dec ..) | .inr .failed | .inr .stopped => trivial
  | .inr (.enc iv aad c t) =>
    dsimp only
    split
    · exact ⟨0, rfl, fun _ => trivial⟩
    · trivial

theorem crossAttack_each : crossAttack.Each fun _ => 1 := by
  refine fun _ => ⟨0, rfl, fun s => ?_⟩
  match s with
  | .inl _ | .inr (.dec ..) | .inr .failed | .inr .stopped => trivial
  | .inr (.enc iv aad c t) =>
    dsimp only
    split
    · exact ⟨0, rfl, fun _ => trivial⟩
    · trivial

theorem crossAttack_rules : ByRulesEach id 3 crossAttack fun _ => [] := by
  refine fun _ => ⟨⟨fun _ _ _ h => absurd h List.not_mem_nil, by decide⟩, fun s => ?_⟩
  match s with
  | .dec .. | .failed | .stopped => trivial
  | .enc iv aad c t =>
    dsimp only
    split
    · rename_i h
      exact ⟨⟨by simp, h.2⟩, fun _ => trivial⟩
    · trivial

example := C134_chacha_forgery (fun w : Bytes 32 => w.1) (fun w => by rw [w.2]; decide) _ random_guess [7] (by decide) (by decide) 2 twoInfos
  twoInfos_inj crossAttack 3 1 2 (fun _ => 1) (by norm_num) (by norm_num) crossAttack_counts crossAttack_each crossAttack_rules

/-- A choice between two messages in two sessions; the guess is that the ciphertexts are equal. -/
def compareSessions (D X : Type) : SessionsAttack D X 2 Pair Bool :=
  .ask (.inr (0, ⟨(.enc zeroIv [1] [0, 0], .enc zeroIv [1] [1, 2]), rfl, rfl, rfl⟩)) fun s =>
    .ask (.inr (1, ⟨(.enc zeroIv [1] [0, 0], .enc zeroIv [1] [3, 4]), rfl, rfl, rfl⟩)) fun r =>
      .ret (match s, r with
        | .inr (.enc _ _ c _), .inr (.enc _ _ c' _) => c = c'
        | _, _ => false)

theorem compareSessions_rules (D X : Type) : ByRulesEach Pair.fst 3 (compareSessions D X) fun _ => [] :=
  ⟨⟨fun _ _ _ h => absurd h List.not_mem_nil, by decide⟩, fun _ => ⟨⟨fun _ _ _ h => absurd h List.not_mem_nil, by decide⟩, fun _ => trivial⟩⟩

example := C134_chacha_privacy (fun w : Bytes 32 => w.1) (fun w => by rw [w.2]; decide) _ random_guess [7] (by decide) (by decide) 2 twoInfos
  twoInfos_inj (compareSessions _ _) 3 0 2 (fun _ => 1) (by norm_num) (by norm_num) ⟨1, rfl, fun _ => ⟨0, rfl, fun _ => trivial⟩⟩
  ⟨0, rfl, fun _ => ⟨0, rfl, fun _ => trivial⟩⟩ (compareSessions_rules _ _) (fun b => b = true)

example := C134_gcm_privacy (fun w : Bytes 32 => w.1) (fun w => by rw [w.2]; decide) _ random_guess [7] (by decide) (by decide) 2 twoInfos
  twoInfos_inj (k := 16) (by decide) (compareSessions _ _) 3 0 2 (fun _ => 1) (by norm_num) (by norm_num) (by norm_num)
  ⟨1, rfl, fun _ => ⟨0, rfl, fun _ => trivial⟩⟩ ⟨0, rfl, fun _ => ⟨0, rfl, fun _ => trivial⟩⟩ (compareSessions_rules _ _) (fun b => b = true)

example := C134_gcm_forgery (fun w : Bytes 32 => w.1) (fun w => by rw [w.2]; decide) _ random_guess [7] (by decide) (by decide) 2 twoInfos
  twoInfos_inj (k := 32) (by decide) (.ask (.inr (0, .dec zeroIv [] [] ⟨List.replicate 16 0, List.length_replicate⟩)) fun _ => .ret ()) 3 0 1
  (fun _ => 1) (by norm_num) (by norm_num) (by norm_num) ⟨0, rfl, fun _ => trivial⟩ ⟨0, rfl, fun _ => trivial⟩
  ⟨⟨List.not_mem_nil, by decide⟩, fun _ => trivial⟩

/-- `2²⁰` sessions with `2¹⁰` messages of `2¹²` bytes each and short strings, and `2⁸⁰` questions. -/
example : (2 : ℚ) ^ 20 * chachaForgery (2 ^ 9) (2 ^ 10) + usersBound (2 ^ 20) (2 ^ 80) (2 ^ 30 * 2 ^ 9) +
    sessionsBound (2 ^ 80) (2 ^ 20) 1 (1 / 2 ^ 256) < 1 / 2 ^ 50 := by
  rw [chachaForgery, usersBound, sessionsBound, prfBound, extractBound, show (2 : ℚ) ^ 513 = (2 ^ 171) ^ 3 from by rw [← pow_mul],
    show (2 : ℚ) ^ 257 = 2 ^ 256 * 2 from pow_succ ..]
  norm_num

end Hacspec.Props
