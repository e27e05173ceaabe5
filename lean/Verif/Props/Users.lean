import Verif.Lemmas.Ideal.Users
import Verif.Props.IdealAeads

/-! # C128: several users of ChaCha20 and ChaCha20-Poly1305 with one random permutation in place of the rounds -/

namespace Hacspec.Props

open Spec Hacspec.Ideal Finset

/-! ## Blocks -/

/-- The blocks of the users. -/
noncomputable def usersFeed {u : Nat} (π : Equiv.Perm (Words 32 16)) (ks : Fin u → Bytes 32) (x : Fin u × (Bytes 12 × U32)) : Bytes 64 :=
  chachaFeed π (ks x.1) x.2

theorem users_le {u : Nat} {O : Type} {p : Prog (Dir Unit (Words 32 16) ⊕ Fin u × (Bytes 12 × U32)) (Words 32 16 ⊕ Bytes 64) O} {q a : Nat}
    (hp : p.Counts q a) (acc : O → Prop) :
    share (fun ω : Equiv.Perm (Words 32 16) × (Fin u × (Bytes 12 × U32) → Bytes 64) => acc (p.run (bothAnswer ω.1 ω.2))) ≤
      share (fun ω : Equiv.Perm (Words 32 16) × (Fin u → Bytes 32) => acc (p.run (bothAnswer ω.1 (usersFeed ω.1 ω.2)))) + usersBound u q a := by
  classical
  have one : ∀ P : Bytes 32 → Prop, (∀ k k', P k → P k' → k = k') → share P ≤ 1 / 2 ^ 256 := by
    intro P hP
    have := share_le (P := P) (c := 1) fun S hS => Finset.card_le_one.mpr fun x hx y hy => hP x y (hS x hx) (hS y hy)
    rw [card_key] at this
    simpa using this
  have hC : share (fun ks : Fin u → Bytes 32 => ¬ Function.Injective fun x : Fin u × (Bytes 12 × U32) => chachaState (ks x.1) x.2) ≤
      u * (u - 1) / 2 ^ 257 := by
    refine (share_mono (Q := fun ks => ¬ Function.Injective ks) fun ks h hi => h fun x y e => ?_).trans
      ((share_not_injective u).trans (le_of_eq (by rw [card_key, ← pow_succ'])))
    obtain ⟨e1, e2⟩ := chachaState_inj e
    exact Prod.ext (hi e1) e2
  have hA : ∀ x, share (fun ks : Fin u → Bytes 32 => ∃ y : Fin u × (Bytes 12 × U32), x = chachaState (ks y.1) y.2) ≤ u * (1 / 2 ^ 256) := by
    intro x
    have := share_exists_mem (Ω := Fin u → Bytes 32) (univ : Finset (Fin u)).toList (P := fun i ks => ∃ j, x = chachaState (ks i) j)
      (ε := 1 / 2 ^ 256) fun i => by
        rw [share_at i fun k : Bytes 32 => ∃ j, x = chachaState k j]
        exact one _ fun k k' ⟨j, e⟩ ⟨j', e'⟩ => (chachaState_inj (e.symm.trans e')).1
    rw [Finset.length_toList, Finset.card_univ, Fintype.card_fin] at this
    exact (share_mono fun ks ⟨y, e⟩ => ⟨y.1, Finset.mem_toList.mpr (Finset.mem_univ _), y.2, e⟩).trans this
  have hB : ∀ x (y : Fin u × (Bytes 12 × U32)) r, share (fun ks : Fin u → Bytes 32 => x = (chachaEquiv (ks y.1) y.2).symm r) ≤ 1 / 2 ^ 256 := by
    intro x y r
    rw [share_at y.1 fun k : Bytes 32 => x = (chachaEquiv k y.2).symm r]
    exact one _ fun k k' e e' => chachaEquiv_key (e.symm.trans e')
  have h := share_feed_any (s := fun (ks : Fin u → Bytes 32) (x : Fin u × (Bytes 12 × U32)) => chachaState (ks x.1) x.2)
    (φ := fun ks x => chachaEquiv (ks x.1) x.2) hC hA hB (by positivity) (by positivity) hp acc
  refine h.trans (le_of_eq ?_)
  rw [usersBound, card_key, ← pow_succ']
  refine congrArg₂ _ rfl ?_
  ring

theorem users_abs {u : Nat} {O : Type} {p : Prog (Dir Unit (Words 32 16) ⊕ Fin u × (Bytes 12 × U32)) (Words 32 16 ⊕ Bytes 64) O} {q a : Nat}
    (hp : p.Counts q a) (acc : O → Prop) :
    |share (fun ω : Equiv.Perm (Words 32 16) × (Fin u → Bytes 32) => acc (p.run (bothAnswer ω.1 (usersFeed ω.1 ω.2)))) -
      share (fun ω : Equiv.Perm (Words 32 16) × (Fin u × (Bytes 12 × U32) → Bytes 64) => acc (p.run (bothAnswer ω.1 ω.2)))| ≤
      usersBound u q a := by
  have h1 := users_le hp acc
  have h2 := users_le hp fun o => ¬ acc o
  rw [share_sub, share_sub] at h2
  rw [abs_le]
  constructor <;> linarith

/-- **C128.**  The blocks of `u` users with random keys are like random strings: whoever asks the permutation `q` times, in any
direction, and for `a` blocks decides for the code as often as for a random function of user, nonce and counter, up to `usersBound`. -/
theorem C128_prf {O : Type} (u : Nat) (p : UsersBlockAttack u O) (q a : Nat) (hp : p.Counts q a) (acc : O → Prop) :
    |share (fun ω : Equiv.Perm (Words 32 16) × (Fin u → Bytes 32) =>
        acc (p.run (bothAnswer ω.1 fun x => chachaBlockOf ω.1 (ω.2 x.1) x.2))) -
      share (fun ω : Equiv.Perm (Words 32 16) × (Fin u × (Bytes 12 × U32) → Bytes 64) =>
        acc (p.run (bothAnswer ω.1 fun x => .ok (ω.2 x).1)))| ≤ usersBound u q a := by
  have h := users_abs (via_counts returned hp) acc
  have e1 : ∀ ω : Equiv.Perm (Words 32 16) × (Fin u × (Bytes 12 × U32) → Bytes 64),
      acc ((via returned p).run (bothAnswer ω.1 ω.2)) ↔ acc (p.run (bothAnswer ω.1 fun x => .ok (ω.2 x).1)) := fun ω => by
    rw [run_via, returned_both]
  have e2 : ∀ ω : Equiv.Perm (Words 32 16) × (Fin u → Bytes 32),
      acc ((via returned p).run (bothAnswer ω.1 (usersFeed ω.1 ω.2))) ↔
        acc (p.run (bothAnswer ω.1 fun x => chachaBlockOf ω.1 (ω.2 x.1) x.2)) := fun ω => by
    rw [run_via, returned_both, show (fun x : Fin u × (Bytes 12 × U32) => chachaBlockOf ω.1 (ω.2 x.1) x.2) =
      fun x => .ok (usersFeed ω.1 ω.2 x).1 from funext fun x => chachaBlockOf_ok ω.1 (ω.2 x.1) x.2]
  rwa [share_congr e1, share_congr e2] at h

/-- One user: the bound of C115. -/
theorem C128_one (q a : Nat) : usersBound 1 q a = blockBound q a := by
  rw [usersBound, blockBound]
  push_cast
  ring

/-! ## From the code to random functions -/

theorem share_curry {u : Nat} {J Y : Type} [Fintype J] [Fintype Y] [DecidableEq J] {A : Type} [Fintype A] (P : A × (Fin u → J → Y) → Prop) :
    share (fun ω : A × (Fin u × J → Y) => P (ω.1, fun i j => ω.2 (i, j))) = share P :=
  share_equiv (Equiv.prodCongr (Equiv.refl A) (Equiv.curry (Fin u) J Y)) P

theorem users_aead {u : Nat} {Q O : Type} (f : Q → Ask) {p : UsersAttack u Q O} {L q n : Nat} (hL : L < 2 ^ 32) (hc : p.Counts q n)
    (hp : ByRulesEach f L p fun _ => []) (acc : O → Prop) :
    |share (fun ω : Equiv.Perm (Words 32 16) × (Fin u → Bytes 32) =>
        acc (p.run (bothAnswer ω.1 fun x => chachaPolyOf.answer (ω.1, ω.2 x.1) (f x.2)))) -
      share (fun ω : Equiv.Perm (Words 32 16) × (Fin u → Bytes 12 × U32 → Bytes 64) =>
        acc (p.run (bothAnswer ω.1 fun x => chachaPoly.answer (ω.2 x.1) (f x.2))))| ≤ usersBound u q (n * L) := by
  classical
  let P := byBlocksEach chachaPoly chachaPoints zeroBlock f L p
  have hP : P.Counts q (n * L) := byBlocksEach_counts zeroBlock hc
  have hr : ∀ (π : Equiv.Perm (Words 32 16)) (F : Fin u × (Bytes 12 × U32) → Bytes 64),
      P.run (bothAnswer π F) = p.run (bothAnswer π fun x => chachaPoly.answer (fun j => F (x.1, j)) (f x.2)) :=
    fun π F => run_byBlocksEach zeroBlock (chachaPoints_local hL) chachaPoints_length _ F hp
  have h := users_abs hP acc
  have e1 : ∀ ω : Equiv.Perm (Words 32 16) × (Fin u × (Bytes 12 × U32) → Bytes 64),
      acc (P.run (bothAnswer ω.1 ω.2)) ↔ acc (p.run (bothAnswer ω.1 fun x => chachaPoly.answer (fun j => ω.2 (x.1, j)) (f x.2))) :=
    fun ω => by rw [hr]
  have e2 : ∀ ω : Equiv.Perm (Words 32 16) × (Fin u → Bytes 32),
      acc (P.run (bothAnswer ω.1 (usersFeed ω.1 ω.2))) ↔
        acc (p.run (bothAnswer ω.1 fun x => chachaPolyOf.answer (ω.1, ω.2 x.1) (f x.2))) := fun ω => by
    rw [hr, show (fun x : Fin u × Q => chachaPolyOf.answer (ω.1, ω.2 x.1) (f x.2)) =
      fun x => chachaPoly.answer (fun j => usersFeed ω.1 ω.2 (x.1, j)) (f x.2) from
      funext fun x => chachaPolyOf_answer (ω.1, ω.2 x.1) (f x.2)]
  rw [share_congr e1, share_congr e2] at h
  rwa [share_curry fun ω : Equiv.Perm (Words 32 16) × (Fin u → Bytes 12 × U32 → Bytes 64) =>
    acc (p.run (bothAnswer ω.1 fun x => chachaPoly.answer (ω.2 x.1) (f x.2)))] at h

/-! ## Forgeries -/

/-- **C128.**  Whoever asks the permutation `q` times and `n` questions to `u` users, `m i` of them to the user `i`, by the rules, with
data of at most `L` blocks, has a ciphertext decrypted by a user who did not make it for at most this share of all permutations and
keys. -/
theorem C128_forgery {O : Type} (u : Nat) (p : UsersAttack u Ask O) (L q n : Nat) (m : Fin u → Nat) (hL : L < 2 ^ 32) (hc : p.Counts q n)
    (hm : p.Each m) (hp : ByRulesEach id L p fun _ => []) :
    share (fun ω : Equiv.Perm (Words 32 16) × (Fin u → Bytes 32) =>
        Decrypted (p.answers (bothAnswer ω.1 fun x => chachaPolyOf.answer (ω.1, ω.2 x.1) x.2))) ≤
      ∑ i, chachaForgery L (m i) + usersBound u q (n * L) := by
  classical
  have h := users_aead id hL (record_counts hc []) (record_rulesEach id L hp []) Decrypted
  have h := (abs_le.mp h).2
  simp only [run_record, List.nil_append, id] at h
  have h2 : share (fun ω : Equiv.Perm (Words 32 16) × (Fin u → Bytes 12 × U32 → Bytes 64) =>
      Decrypted (p.answers (bothAnswer ω.1 fun x => chachaPoly.answer (ω.2 x.1) x.2))) ≤ ∑ i, chachaForgery L (m i) := by
    have hpos : ∀ i, 0 ≤ chachaForgery L (m i) := fun i => by rw [chachaForgery]; positivity
    refine share_prod_le (Finset.sum_nonneg fun i _ => hpos i) fun π => ?_
    refine users_forge chachaPoly (Dir.answer fun _ => π) hm hp hpos fun i p' hc' hp' => ?_
    have h1 := C106_chacha (strategyOf id (strip Empty.elim p')) L (m i) (proper_strategy id L _ hp') hL
    have h2 := share_of_card (by norm_num) h1
    refine (share_mono fun F hF => ?_).trans (h2.trans (le_of_eq ?_))
    · obtain ⟨iv, aad, c, t, msg, hmsg⟩ := hF
      have hmsg := (answers_strip _ _ p').mp hmsg
      obtain ⟨k, hk, e⟩ := answers_play chachaPoly id F _ (strip_within _ hc') hmsg
      exact ⟨k, hk, iv, aad, c, t, msg, e⟩
    · rw [chachaForgery]
      push_cast
      rfl
  linarith

/-! ## Messages -/

theorem users_choice {u : Nat} {O : Type} (p : UsersAttack u Pair O) {L : Nat} {m : Fin u → Nat} (hL : L < 2 ^ 32) (hm : p.Each m)
    (hp : ByRulesEach Pair.fst L p fun _ => []) (acc : O → Prop) :
    share (fun ω : Equiv.Perm (Words 32 16) × (Fin u → Bytes 12 × U32 → Bytes 64) =>
        acc (p.run (bothAnswer ω.1 fun x => chachaPoly.answer (ω.2 x.1) x.2.fst))) ≤
      share (fun ω : Equiv.Perm (Words 32 16) × (Fin u → Bytes 12 × U32 → Bytes 64) =>
        acc (p.run (bothAnswer ω.1 fun x => chachaPoly.answer (ω.2 x.1) x.2.snd))) + ∑ i, 2 * chachaForgery L (m i) := by
  classical
  refine share_prod_add fun π => ?_
  have h := users_choose chachaPoly (Dir.answer fun _ => π) hm hp acc (fun i p' hc' hp' => chacha_choose Empty.elim p' hL hc' hp' acc) univ
  simp only [chosen, Finset.mem_univ, if_true] at h
  exact h

theorem rulesEach_snd {D X U O : Type} [DecidableEq U] {p : Prog (D ⊕ U × Pair) (X ⊕ Seen) O} {L : Nat} {h : U → List Seen}
    (hp : ByRulesEach Pair.fst L p h) : ByRulesEach Pair.snd L p h := by
  induction p generalizing h with
  | ret o => trivial
  | ask x k ih =>
    cases x with
    | inl d => exact fun x => ih _ (hp x)
    | inr x => exact ⟨x.2.allowed_snd hp.1, fun s => ih _ (hp.2 s)⟩

/-- **C128.**  Whoever asks `u` users for encryptions with two messages of one length each time, and for decryptions, cannot tell which
of the messages are encrypted. -/
theorem C128_privacy {O : Type} (u : Nat) (p : UsersAttack u Pair O) (L q n : Nat) (m : Fin u → Nat) (hL : L < 2 ^ 32) (hc : p.Counts q n)
    (hm : p.Each m) (hp : ByRulesEach Pair.fst L p fun _ => []) (acc : O → Prop) :
    |share (fun ω : Equiv.Perm (Words 32 16) × (Fin u → Bytes 32) =>
        acc (p.run (bothAnswer ω.1 fun x => chachaPolyOf.answer (ω.1, ω.2 x.1) x.2.fst))) -
      share (fun ω : Equiv.Perm (Words 32 16) × (Fin u → Bytes 32) =>
        acc (p.run (bothAnswer ω.1 fun x => chachaPolyOf.answer (ω.1, ω.2 x.1) x.2.snd)))| ≤
      2 * (∑ i, chachaForgery L (m i) + usersBound u q (n * L)) := by
  classical
  have a1 := abs_le.mp (users_aead Pair.fst hL hc hp acc)
  have a2 := abs_le.mp (users_aead Pair.snd hL hc (rulesEach_snd hp) acc)
  have b1 := users_choice p hL hm hp acc
  have b2 := users_choice p hL hm hp (fun o => ¬ acc o)
  rw [share_sub, share_sub] at b2
  rw [← Finset.mul_sum] at b1 b2
  rw [abs_le]
  constructor <;> linarith [a1.1, a1.2, a2.1, a2.2]

/-! ## Examples -/

/-- What a user encrypts is sent to another user. -/
def forwardAttack : UsersAttack 2 Ask Unit :=
  .ask (.inr (0, .enc zeroIv [1] [2, 3, 4])) fun
    | .inr (.enc iv aad c t) =>
      if h : t.length = 16 ∧ blocks aad c ≤ 3 then .ask (.inr (1, .dec iv aad c ⟨t, h.1⟩)) fun _ => .ret () else .ret ()
    | _ => .ret ()

theorem forwardAttack_counts : forwardAttack.Counts 0 2 := by
  refine ⟨1, rfl, fun s => ?_⟩
  match s with
  | .inl _ | .inr (.dec ..) | .inr .failed | .inr .stopped => trivial
  | .inr (.enc iv aad c t) =>
    dsimp only
    split
    · exact ⟨0, rfl, fun _ => trivial⟩
    · trivial

theorem forwardAttack_each : forwardAttack.Each fun _ => 1 := by
  refine ⟨0, rfl, fun s => ?_⟩
  match s with
  | .inl _ | .inr (.dec ..) | .inr .failed | .inr .stopped => trivial
  | .inr (.enc iv aad c t) =>
    dsimp only
    split
    · exact ⟨0, rfl, fun _ => trivial⟩
    · trivial

theorem forwardAttack_rules : ByRulesEach id 3 forwardAttack fun _ => [] := by
  refine ⟨⟨fun _ _ _ h => absurd h List.not_mem_nil, by decide⟩, fun s => ?_⟩
  match s with
  | .dec .. | .failed | .stopped => trivial
  | .enc iv aad c t =>
    dsimp only
    split
    · rename_i h
      exact ⟨⟨by simp, h.2⟩, fun _ => trivial⟩
    · trivial

example := C128_forgery 2 forwardAttack 3 0 2 (fun _ => 1) (by norm_num) forwardAttack_counts forwardAttack_each forwardAttack_rules

/-- **C128.**  The last part of the bound cannot be left out: users with equal keys decrypt what was made for the other, so two users
are attacked with success for `1/2²⁵⁶` of all keys, which is `2·1/2²⁵⁷`. -/
theorem C128_sharp : share (fun ω : Equiv.Perm (Words 32 16) × (Fin 2 → Bytes 32) =>
    Decrypted (forwardAttack.answers (bothAnswer ω.1 fun x => chachaPolyOf.answer (ω.1, ω.2 x.1) x.2))) ≥ (2 : ℕ) * ((2 : ℕ) - 1) / 2 ^ 257 := by
  have h1 : share (fun ω : Equiv.Perm (Words 32 16) × (Fin 2 → Bytes 32) => ω.2 0 = ω.2 1) = 1 / 2 ^ 256 := by
    rw [share_snd fun ks : Fin 2 → Bytes 32 => ks 0 = ks 1, share_update 0, share_prod]
    simp only [Function.update_self, Function.update_of_ne (show (1 : Fin 2) ≠ 0 by decide), share_eq, Finset.sum_const, Finset.card_univ,
      nsmul_eq_mul]
    rw [mul_div_cancel_left₀ _ (Nat.cast_ne_zero.mpr Fintype.card_ne_zero), card_key]
  have h2 : ((2 : ℕ) : ℚ) * ((2 : ℕ) - 1) / 2 ^ 257 = 1 / 2 ^ 256 := by rw [pow_succ]; norm_num
  rw [h2, ← h1]
  refine share_mono fun ω e => ?_
  have hF : chachaFeed ω.1 (ω.2 1) = chachaFeed ω.1 (ω.2 0) := by rw [e]
  have hl : (chachaCt (chachaFeed ω.1 (ω.2 0)) zeroIv [2, 3, 4]).length = 3 := length_stream (by norm_num) (fun j => (chachaFeed ω.1 (ω.2 0) _).2) _
  have ht := (polyTag_ok (length_polyKey (chachaFeed ω.1 (ω.2 0)) zeroIv) [1] (chachaCt (chachaFeed ω.1 (ω.2 0)) zeroIv [2, 3, 4])).2
  refine ⟨zeroIv, [1], chachaCt (chachaFeed ω.1 (ω.2 0)) zeroIv [2, 3, 4], ⟨_, ht⟩, chachaCt (chachaFeed ω.1 (ω.2 0)) zeroIv (chachaCt (chachaFeed ω.1 (ω.2 0)) zeroIv [2, 3, 4]), ?_⟩
  have a1 : chachaPolyOf.answer (ω.1, ω.2 0) (.enc zeroIv [1] [2, 3, 4]) = .enc zeroIv [1] (chachaCt (chachaFeed ω.1 (ω.2 0)) zeroIv [2, 3, 4])
      (polyTag (polyKey (chachaFeed ω.1 (ω.2 0)) zeroIv) [1] (chachaCt (chachaFeed ω.1 (ω.2 0)) zeroIv [2, 3, 4])) := by
    rw [chachaPolyOf_answer, Aead.answer, chachaPoly_enc _ _ _ (by norm_num)]
  have a2 : chachaPolyOf.answer (ω.1, ω.2 1) (.dec zeroIv [1] (chachaCt (chachaFeed ω.1 (ω.2 0)) zeroIv [2, 3, 4]) ⟨_, ht⟩) =
      .dec zeroIv [1] (chachaCt (chachaFeed ω.1 (ω.2 0)) zeroIv [2, 3, 4]) ⟨_, ht⟩
        (some (chachaCt (chachaFeed ω.1 (ω.2 0)) zeroIv (chachaCt (chachaFeed ω.1 (ω.2 0)) zeroIv [2, 3, 4]))) := by
    rw [chachaPolyOf_answer, Aead.answer, hF, chachaPoly_dec _ _ _ (by rw [hl]; norm_num), if_pos rfl]
  rw [forwardAttack, Prog.answers]
  refine List.mem_cons_of_mem _ ?_
  simp only [bothAnswer, sideAnswer, a1]
  rw [dif_pos ⟨ht, by rw [blocks, hl]; decide⟩, Prog.answers]
  exact List.mem_cons.mpr (.inl (congrArg Sum.inr a2.symm))

/-- A choice between two messages for two users; the guess is that the ciphertexts are equal. -/
def compareAttack : UsersAttack 2 Pair Bool :=
  .ask (.inr (0, ⟨(.enc zeroIv [1] [0, 0], .enc zeroIv [1] [1, 2]), rfl, rfl, rfl⟩)) fun s =>
    .ask (.inr (1, ⟨(.enc zeroIv [1] [0, 0], .enc zeroIv [1] [3, 4]), rfl, rfl, rfl⟩)) fun r =>
      .ret (match s, r with
        | .inr (.enc _ _ c _), .inr (.enc _ _ c' _) => c = c'
        | _, _ => false)

example := C128_privacy 2 compareAttack 3 0 2 (fun _ => 1) (by norm_num) ⟨1, rfl, fun _ => ⟨0, rfl, fun _ => trivial⟩⟩
  ⟨0, rfl, fun _ => ⟨0, rfl, fun _ => trivial⟩⟩
  ⟨⟨fun _ _ _ h => absurd h List.not_mem_nil, by decide⟩, fun _ => ⟨⟨fun _ _ _ h => absurd h List.not_mem_nil, by decide⟩, fun _ => trivial⟩⟩
  (fun b => b = true)

/-- Whether two users have one block. -/
def sameAttack : UsersBlockAttack 2 Bool :=
  .ask (.inr (0, (zeroIv, 0))) fun b => .ask (.inr (1, (zeroIv, 0))) fun b' =>
    .ret (match b, b' with | .inr (.ok b), .inr (.ok b') => b = b' | _, _ => false)

example := C128_prf 2 sameAttack 0 2 ⟨1, rfl, fun _ => ⟨0, rfl, fun _ => trivial⟩⟩ (fun b => b = true)

/-- `2³⁰` users with `2¹⁰` messages of `2¹²` bytes each, and `2¹⁰⁰` questions to the permutation. -/
example : (2 : ℚ) ^ 30 * chachaForgery (2 ^ 9) (2 ^ 10) + usersBound (2 ^ 30) (2 ^ 100) (2 ^ 40 * 2 ^ 9) < 1 / 2 ^ 42 := by
  rw [chachaForgery, usersBound, show (2 : ℚ) ^ 513 = (2 ^ 171) ^ 3 from by rw [← pow_mul], show (2 : ℚ) ^ 257 = 2 ^ 256 * 2 from pow_succ ..]
  norm_num

end Hacspec.Props
