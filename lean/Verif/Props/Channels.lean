import Verif.Lemmas.Ideal.Channels
import Verif.Props.Sessions

/-! # C136: sessions with keys from an X25519 key exchange -/

namespace Hacspec.Props

open Spec Hacspec.Ideal Finset

/-- The common secrets that `scalarmult` returns for two secrets. -/
def Agreed (ikm : Bytes 32 × Bytes 32 → List U8) : Prop :=
  ∀ ω, ∃ k, Curve25519.scalarmult ω.1.val nine = .ok k ∧ Curve25519.scalarmult ω.2.val k = .ok (ikm ω)

theorem agreed_eq {ikm : Bytes 32 × Bytes 32 → List U8} (h : Agreed ikm) (B : Base25519) (ω : Bytes 32 × Bytes 32) :
    ikm ω = leBytes 32 (X25519.u ((X25519.scalar ω.1.val * X25519.scalar ω.2.val) • B.point)).val := by
  obtain ⟨k, h1, h2⟩ := h ω
  obtain ⟨k', h3, -, h4⟩ := C126_x25519_keys B ω.1 ω.2
  obtain rfl := Except.ok.inj (h1.symm.trans h3)
  exact Except.ok.inj (h2.symm.trans h4)

theorem agreed_length {ikm : Bytes 32 × Bytes 32 → List U8} (h : Agreed ikm) (ω : Bytes 32 × Bytes 32) :
    0 < (ikm ω).length ∧ (ikm ω).length ≤ 55 := by
  rw [agreed_eq h ⟨_, base25519⟩, length_leBytes]
  decide

theorem agreed_share {ikm : Bytes 32 × Bytes 32 → List U8} (h : Agreed ikm) (m : List U8) : share (fun ω => ikm ω = m) ≤ 2 / 2 ^ 251 := by
  let B : Base25519 := ⟨_, base25519⟩
  refine share_prod_le (P := fun ω : Bytes 32 × Bytes 32 => ikm ω = m) (by positivity) fun s => ?_
  have hQ : X25519.order • X25519.scalar s.val • B.point = 0 := by
    rw [← mul_nsmul, mul_comm, mul_nsmul, B.order, nsmul_zero]
  refine (le_of_eq (share_congr fun t => ?_)).trans (share_secret hQ (B.smul_ne s) m)
  rw [agreed_eq h B, mul_nsmul]

theorem scalar_ne (s : Bytes 32) : ((X25519.scalar s.val : Nat) : ZMod X25519.order) ≠ 0 := by
  let B : Base25519 := ⟨_, base25519⟩
  rw [Ne, ZMod.natCast_eq_zero_iff]
  rintro ⟨c, hc⟩
  refine B.smul_ne s ?_
  rw [hc, mul_nsmul, B.order, nsmul_zero]

theorem share_same {Ω : Type} [Fintype Ω] [Nonempty Ω] {P Q D : Ω → Prop} {δ : ℚ} (hd : share D ≤ δ) (h : ∀ ω, ¬ D ω → (P ω ↔ Q ω)) :
    share P ≤ share Q + δ := by
  refine (share_le_add fun ω hω => ?_).trans (add_le_add_right hd _)
  by_cases hD : D ω
  · exact .inr hD
  · exact .inl ((h ω hD).mp hω)

/-- What is left of an attack nearly always. -/
theorem channel_abs {ikm : Bytes 32 × Bytes 32 → List U8} (h : Agreed ikm) (B : Base25519) {P E Q R O : Type} [Fintype P] [Fintype E]
    [Nonempty P] [Nonempty E] (a : ChannelAttack Q R O) {e : Nat} (ha : a.Compares e) (pub : List (X25519.curve (ZMod X25519.p)).Point)
    (ev : P → E → List U8 → Q → R) (D : O → List R → Prop) :
    |share (fun ω : P × (E × (Bytes 32 × Bytes 32)) =>
        D ((a.play (pub ++ [X25519.scalar ω.2.2.1.val • B.point, X25519.scalar ω.2.2.2.val • B.point])).run (ev ω.1 ω.2.1 (ikm ω.2.2)))
          ((a.play (pub ++ [X25519.scalar ω.2.2.1.val • B.point, X25519.scalar ω.2.2.2.val • B.point])).answers (ev ω.1 ω.2.1 (ikm ω.2.2)))) -
      share (fun ω : P × (E × (Bytes 32 × Bytes 32)) =>
        D ((a.play (formal X25519.order pub)).run (ev ω.1 ω.2.1 (ikm ω.2.2)))
          ((a.play (formal X25519.order pub)).answers (ev ω.1 ω.2.1 (ikm ω.2.2))))| ≤ e / 2 ^ 248 := by
  have hb : (2 : ℚ) * e * X25519.order * (1 / 2 ^ 251 * (1 / 2 ^ 251)) ≤ e / 2 ^ 248 := by
    have ho : (X25519.order : ℚ) ≤ 2 ^ 253 := by
      have : X25519.order ≤ 2 ^ 253 := by decide +kernel
      exact_mod_cast this
    have := mul_le_mul_of_nonneg_left ho (show (0 : ℚ) ≤ 2 * e * (1 / 2 ^ 251 * (1 / 2 ^ 251)) by positivity)
    refine le_trans (le_of_eq (by ring)) (this.trans (le_of_eq ?_))
    field_simp
  have hc := fun (x : P) (y : E) => (share_channel B.point B.order B.ne (s := fun s : Bytes 32 => X25519.scalar s.val)
    (t := fun s : Bytes 32 => X25519.scalar s.val) (by positivity) share_x25519 share_x25519 scalar_ne scalar_ne a ha pub
    fun p => ev x y (leBytes 32 (X25519.u p).val)).trans hb
  simp only [← agreed_eq h B] at hc
  rw [abs_le, neg_le_sub_iff_le_add, sub_le_iff_le_add']
  constructor
  · refine share_prod_add (A := P) (B := E × (Bytes 32 × Bytes 32)) (C := E × (Bytes 32 × Bytes 32)) fun x => ?_
    refine share_prod_add (A := E) (B := Bytes 32 × Bytes 32) (C := Bytes 32 × Bytes 32) fun y => ?_
    refine share_same (hc x y) fun ω hω => ?_
    dsimp only
    rw [(not_not.mp hω).1, (not_not.mp hω).2]
  · refine share_prod_add (A := P) (B := E × (Bytes 32 × Bytes 32)) (C := E × (Bytes 32 × Bytes 32)) fun x => ?_
    refine share_prod_add (A := E) (B := Bytes 32 × Bytes 32) (C := Bytes 32 × Bytes 32) fun y => ?_
    refine share_same (hc x y) fun ω hω => ?_
    dsimp only
    rw [(not_not.mp hω).1, (not_not.mp hω).2]

/-- **C136.**  Two random secrets give a common secret by `scalarmult`, from which `extract` and `expand` derive the keys of `u` sessions of
ChaCha20-Poly1305, with different strings `infos`.  Whoever has both public keys, as points of the curve with which they compute without
looking at coordinates, comparing `e` pairs, and asks the cipher inside SHA-256 and the permutation inside ChaCha20 `q` times altogether and
the sessions `n` times by the rules, has a ciphertext decrypted that the session did not make for at most this share of all ciphers,
permutations and secrets. -/
theorem C136_chacha_forgery (ikm : Bytes 32 × Bytes 32 → List U8) (hk : Agreed ikm) (B : Base25519)
    (pub : List (X25519.curve (ZMod X25519.p)).Point) (salt : List U8) (hs : salt.length ≤ 64) {ℓ : Nat} (hℓ : ℓ < 2 ^ 54) (u : Nat)
    (infos : Fin u → Infos ℓ) (hi : Function.Injective infos) {O : Type}
    (a : ChannelAttack ((Dir (Bytes 64) (Words 32 8) ⊕ Dir Unit (Words 32 16)) ⊕ Fin u × Ask) ((Words 32 8 ⊕ Words 32 16) ⊕ Seen) O)
    (e L q n : Nat) (m : Fin u → Nat) (hL : L < 2 ^ 32) (hT : q + u * ℓ < 2 ^ 256) (ha : a.Compares e) (hc : ∀ p, a.Resolves p → p.Counts q n)
    (he : ∀ p, a.Resolves p → p.Each m) (hp : ∀ p, a.Resolves p → ByRulesEach id L p fun _ => []) :
    share (fun ω : Equiv.Perm (Words 32 16) × ((Bytes 64 → Equiv.Perm (Words 32 8)) × (Bytes 32 × Bytes 32)) =>
        Decrypted ((a.play (pub ++ [X25519.scalar ω.2.2.1.val • B.point, X25519.scalar ω.2.2.2.val • B.point])).answers
          (sessionAnswer salt infos 32 (Dir.answer fun _ => ω.1) (fun k a => chachaPolyOf.answer (ω.1, k) a) ω.2.1 (ikm ω.2.2)))) ≤
      ∑ i, chachaForgery L (m i) + usersBound u q (n * L) + sessionsBound q u ℓ (2 / 2 ^ 251) + e / 2 ^ 248 := by
  have hr := resolves_play a (formal X25519.order pub)
  have h1 := (abs_le.mp (channel_abs hk B a ha pub (fun (π : Equiv.Perm (Words 32 16)) E secret =>
    sessionAnswer salt infos 32 (Dir.answer fun _ => π) (fun k a => chachaPolyOf.answer (π, k) a) E secret) fun _ l => Decrypted l)).2
  have h2 := C134_chacha_forgery ikm (agreed_length hk) _ (agreed_share hk) salt hs hℓ u infos hi _ L q n m hL hT (hc _ hr) (he _ hr) (hp _ hr)
  linarith

/-- **C136.**  The same attacks cannot tell which of two messages of one length are encrypted in the sessions. -/
theorem C136_chacha_privacy (ikm : Bytes 32 × Bytes 32 → List U8) (hk : Agreed ikm) (B : Base25519)
    (pub : List (X25519.curve (ZMod X25519.p)).Point) (salt : List U8) (hs : salt.length ≤ 64) {ℓ : Nat} (hℓ : ℓ < 2 ^ 54) (u : Nat)
    (infos : Fin u → Infos ℓ) (hi : Function.Injective infos) {O : Type}
    (a : ChannelAttack ((Dir (Bytes 64) (Words 32 8) ⊕ Dir Unit (Words 32 16)) ⊕ Fin u × Pair) ((Words 32 8 ⊕ Words 32 16) ⊕ Seen) O)
    (e L q n : Nat) (m : Fin u → Nat) (hL : L < 2 ^ 32) (hT : q + u * ℓ < 2 ^ 256) (ha : a.Compares e) (hc : ∀ p, a.Resolves p → p.Counts q n)
    (he : ∀ p, a.Resolves p → p.Each m) (hp : ∀ p, a.Resolves p → ByRulesEach Pair.fst L p fun _ => []) (acc : O → Prop) :
    |share (fun ω : Equiv.Perm (Words 32 16) × ((Bytes 64 → Equiv.Perm (Words 32 8)) × (Bytes 32 × Bytes 32)) =>
        acc ((a.play (pub ++ [X25519.scalar ω.2.2.1.val • B.point, X25519.scalar ω.2.2.2.val • B.point])).run
          (sessionAnswer salt infos 32 (Dir.answer fun _ => ω.1) (fun k a => chachaPolyOf.answer (ω.1, k) a.fst) ω.2.1 (ikm ω.2.2)))) -
      share (fun ω : Equiv.Perm (Words 32 16) × ((Bytes 64 → Equiv.Perm (Words 32 8)) × (Bytes 32 × Bytes 32)) =>
        acc ((a.play (pub ++ [X25519.scalar ω.2.2.1.val • B.point, X25519.scalar ω.2.2.2.val • B.point])).run
          (sessionAnswer salt infos 32 (Dir.answer fun _ => ω.1) (fun k a => chachaPolyOf.answer (ω.1, k) a.snd) ω.2.1 (ikm ω.2.2))))| ≤
      2 * (∑ i, chachaForgery L (m i) + usersBound u q (n * L) + sessionsBound q u ℓ (2 / 2 ^ 251) + e / 2 ^ 248) := by
  have hr := resolves_play a (formal X25519.order pub)
  have h1 := abs_le.mp (channel_abs hk B a ha pub (fun (π : Equiv.Perm (Words 32 16)) E secret =>
    sessionAnswer salt infos 32 (Dir.answer fun _ => π) (fun k (a : Pair) => chachaPolyOf.answer (π, k) a.fst) E secret) fun o _ => acc o)
  have h2 := abs_le.mp (channel_abs hk B a ha pub (fun (π : Equiv.Perm (Words 32 16)) E secret =>
    sessionAnswer salt infos 32 (Dir.answer fun _ => π) (fun k (a : Pair) => chachaPolyOf.answer (π, k) a.snd) E secret) fun o _ => acc o)
  have h3 := abs_le.mp (C134_chacha_privacy ikm (agreed_length hk) _ (agreed_share hk) salt hs hℓ u infos hi _ L q n m hL hT (hc _ hr) (he _ hr)
    (hp _ hr) acc)
  rw [abs_le]
  constructor <;> linarith [h1.1, h1.2, h2.1, h2.2, h3.1, h3.2]

/-- **C136.**  The same for AES-GCM with keys of `k` bytes: forgeries. -/
theorem C136_gcm_forgery (ikm : Bytes 32 × Bytes 32 → List U8) (hk : Agreed ikm) (B : Base25519)
    (pub : List (X25519.curve (ZMod X25519.p)).Point) (salt : List U8) (hs : salt.length ≤ 64) {ℓ : Nat} (hℓ : ℓ < 2 ^ 54) (u : Nat)
    (infos : Fin u → Infos ℓ) (hi : Function.Injective infos) {k : Nat} (hk' : k ≤ 32) {O : Type}
    (a : ChannelAttack ((Dir (Bytes 64) (Words 32 8) ⊕ Dir (Bytes k) (Bytes 16)) ⊕ Fin u × Ask) ((Words 32 8 ⊕ Bytes 16) ⊕ Seen) O)
    (e L q n : Nat) (m : Fin u → Nat) (hL : L < 2 ^ 32) (hn : ∀ i, m i * L < 2 ^ 64) (hT : q + u * ℓ < 2 ^ 256) (ha : a.Compares e)
    (hc : ∀ p, a.Resolves p → p.Counts q n) (he : ∀ p, a.Resolves p → p.Each m) (hp : ∀ p, a.Resolves p → ByRulesEach id L p fun _ => []) :
    share (fun ω : (Bytes k → Equiv.Perm (Bytes 16)) × ((Bytes 64 → Equiv.Perm (Words 32 8)) × (Bytes 32 × Bytes 32)) =>
        Decrypted ((a.play (pub ++ [X25519.scalar ω.2.2.1.val • B.point, X25519.scalar ω.2.2.2.val • B.point])).answers
          (sessionAnswer salt infos k (Dir.answer ω.1) (fun k' a => (aesGcmOf k).answer (ω.1, k') a) ω.2.1 (ikm ω.2.2)))) ≤
      ∑ i, gcmForgery L (m i) + keysBound k u q + sessionsBound q u ℓ (2 / 2 ^ 251) + e / 2 ^ 248 := by
  have hr := resolves_play a (formal X25519.order pub)
  have h1 := (abs_le.mp (channel_abs hk B a ha pub (fun (F : Bytes k → Equiv.Perm (Bytes 16)) E secret =>
    sessionAnswer salt infos k (Dir.answer F) (fun k' a => (aesGcmOf k).answer (F, k') a) E secret) fun _ l => Decrypted l)).2
  have h2 := C134_gcm_forgery ikm (agreed_length hk) _ (agreed_share hk) salt hs hℓ u infos hi hk' _ L q n m hL hn hT (hc _ hr) (he _ hr) (hp _ hr)
  linarith

/-- **C136.**  The same for AES-GCM with keys of `k` bytes: messages. -/
theorem C136_gcm_privacy (ikm : Bytes 32 × Bytes 32 → List U8) (hk : Agreed ikm) (B : Base25519)
    (pub : List (X25519.curve (ZMod X25519.p)).Point) (salt : List U8) (hs : salt.length ≤ 64) {ℓ : Nat} (hℓ : ℓ < 2 ^ 54) (u : Nat)
    (infos : Fin u → Infos ℓ) (hi : Function.Injective infos) {k : Nat} (hk' : k ≤ 32) {O : Type}
    (a : ChannelAttack ((Dir (Bytes 64) (Words 32 8) ⊕ Dir (Bytes k) (Bytes 16)) ⊕ Fin u × Pair) ((Words 32 8 ⊕ Bytes 16) ⊕ Seen) O)
    (e L q n : Nat) (m : Fin u → Nat) (hL : L < 2 ^ 32) (hn : ∀ i, m i * L < 2 ^ 64) (hT : q + u * ℓ < 2 ^ 256) (ha : a.Compares e)
    (hc : ∀ p, a.Resolves p → p.Counts q n) (he : ∀ p, a.Resolves p → p.Each m)
    (hp : ∀ p, a.Resolves p → ByRulesEach Pair.fst L p fun _ => []) (acc : O → Prop) :
    |share (fun ω : (Bytes k → Equiv.Perm (Bytes 16)) × ((Bytes 64 → Equiv.Perm (Words 32 8)) × (Bytes 32 × Bytes 32)) =>
        acc ((a.play (pub ++ [X25519.scalar ω.2.2.1.val • B.point, X25519.scalar ω.2.2.2.val • B.point])).run
          (sessionAnswer salt infos k (Dir.answer ω.1) (fun k' a => (aesGcmOf k).answer (ω.1, k') a.fst) ω.2.1 (ikm ω.2.2)))) -
      share (fun ω : (Bytes k → Equiv.Perm (Bytes 16)) × ((Bytes 64 → Equiv.Perm (Words 32 8)) × (Bytes 32 × Bytes 32)) =>
        acc ((a.play (pub ++ [X25519.scalar ω.2.2.1.val • B.point, X25519.scalar ω.2.2.2.val • B.point])).run
          (sessionAnswer salt infos k (Dir.answer ω.1) (fun k' a => (aesGcmOf k).answer (ω.1, k') a.snd) ω.2.1 (ikm ω.2.2))))| ≤
      ∑ i, gcmPrivacy L (m i) + 2 * keysBound k u q + 2 * sessionsBound q u ℓ (2 / 2 ^ 251) + 2 * (e / 2 ^ 248) := by
  have hr := resolves_play a (formal X25519.order pub)
  have h1 := abs_le.mp (channel_abs hk B a ha pub (fun (F : Bytes k → Equiv.Perm (Bytes 16)) E secret =>
    sessionAnswer salt infos k (Dir.answer F) (fun k' (a : Pair) => (aesGcmOf k).answer (F, k') a.fst) E secret) fun o _ => acc o)
  have h2 := abs_le.mp (channel_abs hk B a ha pub (fun (F : Bytes k → Equiv.Perm (Bytes 16)) E secret =>
    sessionAnswer salt infos k (Dir.answer F) (fun k' (a : Pair) => (aesGcmOf k).answer (F, k') a.snd) E secret) fun o _ => acc o)
  have h3 := abs_le.mp (C134_gcm_privacy ikm (agreed_length hk) _ (agreed_share hk) salt hs hℓ u infos hi hk' _ L q n m hL hn hT (hc _ hr)
    (he _ hr) (hp _ hr) acc)
  rw [abs_le]
  constructor <;> linarith [h1.1, h1.2, h2.1, h2.2, h3.1, h3.2]

/-! ## Cases -/

/-- **C136.**  There are common secrets for all secrets, so that the theorems are not about nothing. -/
theorem C136_agreed : ∃ ikm, Agreed ikm := by
  refine ⟨fun ω => leBytes 32 (X25519.u ((X25519.scalar ω.1.val * X25519.scalar ω.2.val) • (⟨_, base25519⟩ : Base25519).point)).val, fun ω => ?_⟩
  obtain ⟨k, h1, -, h2⟩ := C126_x25519_keys ⟨_, base25519⟩ ω.1 ω.2
  exact ⟨k, h1, h2⟩

/-- A program without a group. -/
def noGroup {Q R O : Type} : Prog Q R O → ChannelAttack Q R O
  | .ret o => .ret o
  | .ask x k => .ask x fun y => noGroup (k y)

theorem noGroup_resolves {Q R O : Type} {p p' : Prog Q R O} (h : (noGroup p).Resolves p') : p' = p := by
  induction p generalizing p' with
  | ret o => cases h; rfl
  | ask x k ih =>
    cases h with
    | ask h => exact congrArg (Prog.ask x) (funext fun y => ih y (h y))

theorem noGroup_compares {Q R O : Type} (p : Prog Q R O) (e : Nat) : (noGroup p).Compares e := by
  induction p with
  | ret o => trivial
  | ask x k ih => exact fun y => ih y

/-- The sum of the public keys is compared with the base point; then follows one of two attacks on the sessions. -/
def sumAttack {Q R O : Type} (p p' : Prog Q R O) : ChannelAttack Q R O :=
  .combine 1 1 1 2 (.compare 0 3 fun b => if b then noGroup p else noGroup p')

theorem sumAttack_compares {Q R O : Type} (p p' : Prog Q R O) : (sumAttack p p').Compares 1 := by
  refine ⟨0, rfl, fun b => ?_⟩
  cases b
  · exact noGroup_compares p' 0
  · exact noGroup_compares p 0

theorem sumAttack_resolves {Q R O : Type} {p p' r : Prog Q R O} (h : (sumAttack p p').Resolves r) : r = p ∨ r = p' := by
  cases h with
  | combine h =>
    cases h with
    | compare b h =>
      cases b
      · exact .inr (noGroup_resolves h)
      · exact .inl (noGroup_resolves h)

/-- The attacks on the sessions are those of C134. -/
example (ikm : Bytes 32 × Bytes 32 → List U8) (hk : Agreed ikm) (B : Base25519) :=
  C136_chacha_forgery ikm hk B [B.point] [7] (by decide) (by decide) 2 twoInfos twoInfos_inj (sumAttack (.ret ()) crossAttack) 1 3 1 2 (fun _ => 1)
    (by norm_num) (by norm_num) (sumAttack_compares _ _) (fun _ h => by rcases sumAttack_resolves h with rfl | rfl; exacts [trivial, crossAttack_counts])
    (fun _ h => by rcases sumAttack_resolves h with rfl | rfl; exacts [trivial, crossAttack_each])
    (fun _ h => by rcases sumAttack_resolves h with rfl | rfl; exacts [trivial, crossAttack_rules])

example (ikm : Bytes 32 × Bytes 32 → List U8) (hk : Agreed ikm) (B : Base25519) :=
  C136_chacha_privacy ikm hk B [B.point] [7] (by decide) (by decide) 2 twoInfos twoInfos_inj (sumAttack (.ret true) (compareSessions _ _)) 1 3 0 2
    (fun _ => 1) (by norm_num) (by norm_num) (sumAttack_compares _ _)
    (fun _ h => by rcases sumAttack_resolves h with rfl | rfl; exacts [trivial, ⟨1, rfl, fun _ => ⟨0, rfl, fun _ => trivial⟩⟩])
    (fun _ h => by rcases sumAttack_resolves h with rfl | rfl; exacts [trivial, ⟨0, rfl, fun _ => ⟨0, rfl, fun _ => trivial⟩⟩])
    (fun _ h => by rcases sumAttack_resolves h with rfl | rfl; exacts [trivial, (compareSessions_rules _ _)]) (fun b => b = true)

example (ikm : Bytes 32 × Bytes 32 → List U8) (hk : Agreed ikm) (B : Base25519) :=
  C136_gcm_privacy ikm hk B [B.point] [7] (by decide) (by decide) 2 twoInfos twoInfos_inj (k := 16) (by decide)
    (sumAttack (.ret true) (compareSessions _ _)) 1 3 0 2 (fun _ => 1) (by norm_num) (by norm_num) (by norm_num) (sumAttack_compares _ _)
    (fun _ h => by rcases sumAttack_resolves h with rfl | rfl; exacts [trivial, ⟨1, rfl, fun _ => ⟨0, rfl, fun _ => trivial⟩⟩])
    (fun _ h => by rcases sumAttack_resolves h with rfl | rfl; exacts [trivial, ⟨0, rfl, fun _ => ⟨0, rfl, fun _ => trivial⟩⟩])
    (fun _ h => by rcases sumAttack_resolves h with rfl | rfl; exacts [trivial, (compareSessions_rules _ _)]) (fun b => b = true)

example (ikm : Bytes 32 × Bytes 32 → List U8) (hk : Agreed ikm) (B : Base25519) :=
  C136_gcm_forgery ikm hk B [B.point] [7] (by decide) (by decide) 2 twoInfos twoInfos_inj (k := 32) (by decide)
    (sumAttack (.ret ()) (.ask (.inr (0, .dec zeroIv [] [] ⟨List.replicate 16 0, List.length_replicate⟩)) fun _ => .ret ())) 1 3 0 1 (fun _ => 1)
    (by norm_num) (by norm_num) (by norm_num) (sumAttack_compares _ _)
    (fun _ h => by rcases sumAttack_resolves h with rfl | rfl; exacts [trivial, ⟨0, rfl, fun _ => trivial⟩])
    (fun _ h => by rcases sumAttack_resolves h with rfl | rfl; exacts [trivial, ⟨0, rfl, fun _ => trivial⟩])
    (fun _ h => by rcases sumAttack_resolves h with rfl | rfl; exacts [trivial, ⟨⟨List.not_mem_nil, by decide⟩, fun _ => trivial⟩])

/-- The base point of RFC 7748. -/
example : Base25519 := ⟨_, base25519⟩

/-- `2²⁰` sessions with `2¹⁰` messages of `2¹²` bytes each and short strings, `2⁸⁰` questions and `2¹⁶⁰` comparisons. -/
example : (2 : ℚ) ^ 20 * chachaForgery (2 ^ 9) (2 ^ 10) + usersBound (2 ^ 20) (2 ^ 80) (2 ^ 30 * 2 ^ 9) +
    sessionsBound (2 ^ 80) (2 ^ 20) 1 (2 / 2 ^ 251) + 2 ^ 160 / 2 ^ 248 < 1 / 2 ^ 50 := by
  rw [chachaForgery, usersBound, sessionsBound, prfBound, extractBound, show (2 : ℚ) ^ 513 = (2 ^ 171) ^ 3 from by rw [← pow_mul],
    show (2 : ℚ) ^ 257 = 2 ^ 256 * 2 from pow_succ ..]
  norm_num

end Hacspec.Props
