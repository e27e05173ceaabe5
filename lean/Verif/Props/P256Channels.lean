import Verif.Props.Channels

/-! # C140: sessions with keys from a P-256 key exchange -/

namespace Hacspec.Props

open SecretInt NatMod Hacspec.AbstractInt Spec WeierstrassCurve Hacspec.Ideal Finset

/-- The secret `d` stands for the scalar `d + 1`: all scalars from `1` to `n - 1`. -/
abbrev SecretP256 := Fin (Spec.P256.n - 1)

/-- The points whose coordinates `point_mul` returns. -/
def PublicP256 (K : SecretP256 → P256Point) : Prop :=
  ∀ d, ∃ x y, Hacspec.P256.pointMul (AbstractInt.enc 256 (d.val + 1)) = .ok (x, y) ∧ Coords (K d) x y

/-- The common secrets: the first public key as `point_mul` returns it, with third coordinate `1`, is multiplied by the second secret, and
the `x` coordinate of the result is written by `to_le_bytes`. -/
def AgreedP256 (ikm : SecretP256 × SecretP256 → List U8) : Prop :=
  ∀ ω, ∃ x y one j x' y', Hacspec.P256.pointMul (AbstractInt.enc 256 (ω.1.val + 1)) = .ok (x, y) ∧
    NatMod.fromLiteral Hacspec.P256.F 1 = .ok one ∧
    Hacspec.P256.montgomeryLadder (AbstractInt.enc 256 (ω.2.val + 1)) ⟨x, y, one⟩ = .ok j ∧
    Hacspec.P256.jacobianToAffine j = .ok (x', y') ∧ NatMod.toLeBytes x' = ikm ω

instance nonemptySecretP256 : Nonempty SecretP256 := ⟨⟨0, by decide +kernel⟩⟩

theorem secretP256_lt (d : SecretP256) : d.val + 1 < Spec.P256.n := by
  have := d.isLt
  omega

theorem secretP256_reach (d : SecretP256) :
    Reach 256 false (AbstractInt.enc 256 (d.val + 1)) ∧ val (AbstractInt.enc 256 (d.val + 1)) = d.val + 1 :=
  enc_reach_n ⟨d.val + 1, secretP256_lt d⟩

theorem publicP256_eq {K : SecretP256 → P256Point} (h : PublicP256 K) (d : SecretP256) : K d = (d.val + 1) • baseP256 := by
  obtain ⟨h1, h2⟩ := secretP256_reach d
  obtain ⟨x, y, h3, h4⟩ := point_mul_coords _ h1
  rw [h2] at h4
  obtain ⟨x', y', e, h⟩ := h d
  obtain ⟨rfl, rfl⟩ := Prod.mk.inj (Except.ok.inj (h3.symm.trans e))
  exact (coords_inj h h4).mp ⟨rfl, rfl⟩

theorem secretP256_ne (d : SecretP256) : ((d.val + 1 : Nat) : ZMod Spec.P256.n) ≠ 0 := by
  rw [Ne, ZMod.natCast_eq_zero_iff]
  exact Nat.not_dvd_of_pos_of_lt (Nat.succ_pos _) (secretP256_lt d)

theorem share_secretP256 (c : ZMod Spec.P256.n) : share (fun d : SecretP256 => ((d.val + 1 : Nat) : ZMod Spec.P256.n) = c) ≤ 1 / 2 ^ 255 := by
  refine (share_le (c := 1) fun s hs => Finset.card_le_one.mpr fun d hd d' hd' => ?_).trans ?_
  · have h := (hs d hd).trans (hs d' hd').symm
    rw [ZMod.natCast_eq_natCast_iff', Nat.mod_eq_of_lt (secretP256_lt d), Nat.mod_eq_of_lt (secretP256_lt d')] at h
    exact Fin.ext (Nat.succ.inj h)
  · rw [Fintype.card_fin, Nat.cast_one]
    have h : 2 ^ 255 ≤ Spec.P256.n - 1 := by decide +kernel
    have h' : (2 : ℚ) ^ 255 ≤ ((Spec.P256.n - 1 : Nat) : ℚ) := by exact_mod_cast h
    exact one_div_le_one_div_of_le (by positivity) h'

/-- The `x` coordinate of a point. -/
def xP256 (P : P256Point) : ZMod P256.p := (Hacspec.P256.affine P).1

/-- What the code computes from a scalar and a public key. -/
theorem exchangeP256 (a b : SecretP256) : ∃ x y one j x' y', Hacspec.P256.pointMul (AbstractInt.enc 256 (a.val + 1)) = .ok (x, y) ∧
    NatMod.fromLiteral Hacspec.P256.F 1 = .ok one ∧
    Hacspec.P256.montgomeryLadder (AbstractInt.enc 256 (b.val + 1)) ⟨x, y, one⟩ = .ok j ∧
    Hacspec.P256.jacobianToAffine j = .ok (x', y') ∧
    NatMod.toLeBytes x' = bytesLe (xP256 (((a.val + 1) * (b.val + 1)) • baseP256)).val := by
  obtain ⟨ra, va⟩ := secretP256_reach a
  obtain ⟨rb, vb⟩ := secretP256_reach b
  obtain ⟨b1, b2⟩ := p256_bits ra
  obtain ⟨x, y, h1, hx, hy⟩ := Hacspec.P256.pointMul_ok (K := ZMod P256.p) b1 b2
  obtain ⟨one, h2, h1'⟩ := Hacspec.P256.lit (K := ZMod P256.p) 1 1 (by simp)
  have hne : (a.val + 1) • baseP256 ≠ 0 := by
    rw [Ne, p256_smul_eq_zero baseP256_ne]
    exact Nat.not_dvd_of_pos_of_lt (Nat.succ_pos _) (secretP256_lt a)
  have hr : Represents ⟨x, y, one⟩ ((a.val + 1) • baseP256) := by
    rw [represents_iff]
    rw [va] at hx hy
    change Fe _ x (Hacspec.P256.affine ((a.val + 1) • baseP256)).1 at hx
    change Fe _ y (Hacspec.P256.affine ((a.val + 1) • baseP256)).2 at hy
    generalize (a.val + 1) • baseP256 = P at *
    cases P with
    | zero => exact absurd rfl hne
    | some u v hn => exact ⟨_, _, _, ⟨hx, hy, h1'⟩, one_ne_zero, by simp [Hacspec.P256.affine], by simp [Hacspec.P256.affine]⟩
  obtain ⟨j, h3, hj⟩ := C55_ladder _ rb _ _ hr
  obtain ⟨x', y', h4, hx', -⟩ := Hacspec.P256.toAffine_ok (represents_iff.mp hj)
  refine ⟨x, y, one, j, x', y', h1, h2, h3, h4, ?_⟩
  rw [vb, ← mul_nsmul] at hx'
  rw [NatMod.toLeBytes, AbstractInt.toLeBytes, hx'.sign, Int.natAbs_natCast, xP256, ← hx'.val, ZMod.val_cast_of_lt]
  have := hx'.lt
  rwa [Hacspec.P256.F_n] at this

theorem agreedP256_eq {ikm : SecretP256 × SecretP256 → List U8} (h : AgreedP256 ikm) (ω : SecretP256 × SecretP256) :
    ikm ω = bytesLe (xP256 (((ω.1.val + 1) * (ω.2.val + 1)) • baseP256)).val := by
  obtain ⟨x, y, one, j, x', y', h1, h2, h3, h4, h5⟩ := h ω
  obtain ⟨a, b, c, d, e, f, g1, g2, g3, g4, g5⟩ := exchangeP256 ω.1 ω.2
  obtain ⟨rfl, rfl⟩ := Prod.mk.inj (Except.ok.inj (h1.symm.trans g1))
  obtain rfl := Except.ok.inj (h2.symm.trans g2)
  obtain rfl := Except.ok.inj (h3.symm.trans g3)
  obtain ⟨rfl, rfl⟩ := Prod.mk.inj (Except.ok.inj (h4.symm.trans g4))
  exact h5.symm.trans g5

theorem agreedP256_length32 {ikm : SecretP256 × SecretP256 → List U8} (h : AgreedP256 ikm) (ω : SecretP256 × SecretP256) :
    0 < (ikm ω).length ∧ (ikm ω).length ≤ 32 := by
  rw [agreedP256_eq h]
  refine ⟨by rw [length_bytesLe]; omega, (length_bytesLe_le (by decide)).mpr (lt_trans (ZMod.val_lt _) (by decide +kernel))⟩

theorem agreedP256_length {ikm : SecretP256 × SecretP256 → List U8} (h : AgreedP256 ikm) (ω : SecretP256 × SecretP256) :
    0 < (ikm ω).length ∧ (ikm ω).length ≤ 55 :=
  ⟨(agreedP256_length32 h ω).1, (agreedP256_length32 h ω).2.trans (by decide)⟩

theorem xP256_eq {P Q : P256Point} (hP : P ≠ 0) (hQ : Q ≠ 0) (h : xP256 P = xP256 Q) : P = Q ∨ P = -Q := by
  cases P with
  | zero => exact absurd rfl hP
  | some a b hn =>
    cases Q with
    | zero => exact absurd rfl hQ
    | some a' b' hn' =>
      obtain rfl : a = a' := h
      rw [Affine.Point.neg_some]
      rcases Affine.Y_eq_of_X_eq hn.1 hn'.1 rfl with h | h
      · subst h; exact .inl rfl
      · subst h; exact .inr rfl

theorem agreedP256_share {ikm : SecretP256 × SecretP256 → List U8} (h : AgreedP256 ikm) (m : List U8) :
    share (fun ω => ikm ω = m) ≤ 2 / 2 ^ 255 := by
  refine share_prod_le (P := fun ω : SecretP256 × SecretP256 => ikm ω = m) (by positivity) fun s => ?_
  have hQ : (s.val + 1) • baseP256 ≠ 0 := by
    rw [Ne, p256_smul_eq_zero baseP256_ne]
    exact Nat.not_dvd_of_pos_of_lt (Nat.succ_pos _) (secretP256_lt s)
  have hne (t : SecretP256) : (t.val + 1) • (s.val + 1) • baseP256 ≠ 0 := by
    rw [Ne, p256_smul_eq_zero hQ]
    exact Nat.not_dvd_of_pos_of_lt (Nat.succ_pos _) (secretP256_lt t)
  by_cases hm : ∃ t, ikm (s, t) = m
  · obtain ⟨t', rfl⟩ := hm
    refine (share_le_add (Q := fun t : SecretP256 => ((t.val + 1 : Nat) : ZMod Spec.P256.n) = (t'.val + 1 : Nat))
      (R := fun t : SecretP256 => ((t.val + 1 : Nat) : ZMod Spec.P256.n) = -(t'.val + 1 : Nat)) fun t e => ?_).trans
      ((add_le_add (share_secretP256 _) (share_secretP256 _)).trans (le_of_eq (by norm_num)))
    rw [agreedP256_eq h, agreedP256_eq h, mul_nsmul, mul_nsmul] at e
    have e := congrArg leNat e
    rw [leNat_bytesLe, leNat_bytesLe] at e
    rcases xP256_eq (hne t) (hne t') (ZMod.val_injective _ e) with e | e
    · exact .inl ((ZMod.natCast_eq_natCast_iff' _ _ _).mpr ((p256_smul_eq hQ _ _).mp e))
    · refine .inr (eq_neg_of_add_eq_zero_left ?_)
      rw [← Nat.cast_add]
      exact (ZMod.natCast_eq_zero_iff _ _).mpr ((p256_smul_neg hQ _ _).mp e)
  · exact le_trans (le_of_eq (share_false fun t ht => hm ⟨t, ht⟩)) (by positivity)

/-- What is left of an attack nearly always. -/
theorem channelP256_abs {ikm : SecretP256 × SecretP256 → List U8} (h : AgreedP256 ikm) {K : SecretP256 → P256Point} (hK : PublicP256 K)
    {P E Q R O : Type} [Fintype P] [Fintype E] [Nonempty P] [Nonempty E] (a : ChannelAttack Q R O) {e : Nat} (ha : a.Compares e)
    (pub : List P256Point) (ev : P → E → List U8 → Q → R) (D : O → List R → Prop) :
    |share (fun ω : P × (E × (SecretP256 × SecretP256)) =>
        D ((a.play (pub ++ [K ω.2.2.1, K ω.2.2.2])).run (ev ω.1 ω.2.1 (ikm ω.2.2)))
          ((a.play (pub ++ [K ω.2.2.1, K ω.2.2.2])).answers (ev ω.1 ω.2.1 (ikm ω.2.2)))) -
      share (fun ω : P × (E × (SecretP256 × SecretP256)) =>
        D ((a.play (formal Spec.P256.n pub)).run (ev ω.1 ω.2.1 (ikm ω.2.2)))
          ((a.play (formal Spec.P256.n pub)).answers (ev ω.1 ω.2.1 (ikm ω.2.2))))| ≤ e / 2 ^ 253 := by
  have hb : (2 : ℚ) * e * Spec.P256.n * (1 / 2 ^ 255 * (1 / 2 ^ 255)) ≤ e / 2 ^ 253 := by
    have ho : (Spec.P256.n : ℚ) ≤ 2 ^ 256 := by
      have : Spec.P256.n ≤ 2 ^ 256 := by decide +kernel
      exact_mod_cast this
    have := mul_le_mul_of_nonneg_left ho (show (0 : ℚ) ≤ 2 * e * (1 / 2 ^ 255 * (1 / 2 ^ 255)) by positivity)
    refine le_trans (le_of_eq (by ring)) (this.trans (le_of_eq ?_))
    field_simp
  have hc := fun (x : P) (y : E) => (share_channel baseP256 order_baseP256 baseP256_ne (s := fun d : SecretP256 => d.val + 1)
    (t := fun d : SecretP256 => d.val + 1) (by positivity) share_secretP256 share_secretP256 secretP256_ne secretP256_ne a ha pub
    fun p => ev x y (bytesLe (xP256 p).val)).trans hb
  simp only [← agreedP256_eq h, ← publicP256_eq hK] at hc
  rw [abs_le, neg_le_sub_iff_le_add, sub_le_iff_le_add']
  constructor
  · refine share_prod_add (A := P) (B := E × (SecretP256 × SecretP256)) (C := E × (SecretP256 × SecretP256)) fun x => ?_
    refine share_prod_add (A := E) (B := SecretP256 × SecretP256) (C := SecretP256 × SecretP256) fun y => ?_
    refine share_same (hc x y) fun ω hω => ?_
    dsimp only
    rw [(not_not.mp hω).1, (not_not.mp hω).2]
  · refine share_prod_add (A := P) (B := E × (SecretP256 × SecretP256)) (C := E × (SecretP256 × SecretP256)) fun x => ?_
    refine share_prod_add (A := E) (B := SecretP256 × SecretP256) (C := SecretP256 × SecretP256) fun y => ?_
    refine share_same (hc x y) fun ω hω => ?_
    dsimp only
    rw [(not_not.mp hω).1, (not_not.mp hω).2]

/-- **C140.**  Two random secrets between `1` and `n - 1` give a common secret: the `x` coordinate that `montgomery_ladder` and
`jacobian_to_affine` compute from one secret and the public key of the other, as the bytes of `to_le_bytes`.  From it `extract` and `expand`
derive the keys of `u` sessions of ChaCha20-Poly1305, with different strings `infos`.  Whoever has both public keys, as points of the curve
with which they compute without looking at coordinates, comparing `e` pairs, and asks the cipher inside SHA-256 and the permutation inside
ChaCha20 `q` times altogether and the sessions `n` times by the rules, has a ciphertext decrypted that the session did not make for at most
this share of all ciphers, permutations and secrets. -/
theorem C140_chacha_forgery (ikm : SecretP256 × SecretP256 → List U8) (hk : AgreedP256 ikm)
    (K : SecretP256 → P256Point) (hK : PublicP256 K) (pub : List P256Point) (salt : List U8) (hs : salt.length ≤ 64) {ℓ : Nat} (hℓ : ℓ < 2 ^ 54) (u : Nat)
    (infos : Fin u → Infos ℓ) (hi : Function.Injective infos) {O : Type}
    (a : ChannelAttack ((Dir (Bytes 64) (Words 32 8) ⊕ Dir Unit (Words 32 16)) ⊕ Fin u × Ask) ((Words 32 8 ⊕ Words 32 16) ⊕ Seen) O)
    (e L q n : Nat) (m : Fin u → Nat) (hL : L < 2 ^ 32) (hT : q + u * ℓ < 2 ^ 256) (ha : a.Compares e) (hc : ∀ p, a.Resolves p → p.Counts q n)
    (he : ∀ p, a.Resolves p → p.Each m) (hp : ∀ p, a.Resolves p → ByRulesEach id L p fun _ => []) :
    share (fun ω : Equiv.Perm (Words 32 16) × ((Bytes 64 → Equiv.Perm (Words 32 8)) × (SecretP256 × SecretP256)) =>
        Decrypted ((a.play (pub ++ [K ω.2.2.1, K ω.2.2.2])).answers
          (sessionAnswer salt infos 32 (Dir.answer fun _ => ω.1) (fun k a => chachaPolyOf.answer (ω.1, k) a) ω.2.1 (ikm ω.2.2)))) ≤
      ∑ i, chachaForgery L (m i) + usersBound u q (n * L) + sessionsBound q u ℓ (2 / 2 ^ 255) + e / 2 ^ 253 := by
  have hr := resolves_play a (formal Spec.P256.n pub)
  have h1 := (abs_le.mp (channelP256_abs hk hK a ha pub (fun (π : Equiv.Perm (Words 32 16)) E secret =>
    sessionAnswer salt infos 32 (Dir.answer fun _ => π) (fun k a => chachaPolyOf.answer (π, k) a) E secret) fun _ l => Decrypted l)).2
  have h2 := C134_chacha_forgery ikm (agreedP256_length hk) _ (agreedP256_share hk) salt hs hℓ u infos hi _ L q n m hL hT (hc _ hr) (he _ hr) (hp _ hr)
  linarith

/-- **C140.**  The same attacks cannot tell which of two messages of one length are encrypted in the sessions. -/
theorem C140_chacha_privacy (ikm : SecretP256 × SecretP256 → List U8) (hk : AgreedP256 ikm)
    (K : SecretP256 → P256Point) (hK : PublicP256 K) (pub : List P256Point) (salt : List U8) (hs : salt.length ≤ 64) {ℓ : Nat} (hℓ : ℓ < 2 ^ 54) (u : Nat)
    (infos : Fin u → Infos ℓ) (hi : Function.Injective infos) {O : Type}
    (a : ChannelAttack ((Dir (Bytes 64) (Words 32 8) ⊕ Dir Unit (Words 32 16)) ⊕ Fin u × Pair) ((Words 32 8 ⊕ Words 32 16) ⊕ Seen) O)
    (e L q n : Nat) (m : Fin u → Nat) (hL : L < 2 ^ 32) (hT : q + u * ℓ < 2 ^ 256) (ha : a.Compares e) (hc : ∀ p, a.Resolves p → p.Counts q n)
    (he : ∀ p, a.Resolves p → p.Each m) (hp : ∀ p, a.Resolves p → ByRulesEach Pair.fst L p fun _ => []) (acc : O → Prop) :
    |share (fun ω : Equiv.Perm (Words 32 16) × ((Bytes 64 → Equiv.Perm (Words 32 8)) × (SecretP256 × SecretP256)) =>
        acc ((a.play (pub ++ [K ω.2.2.1, K ω.2.2.2])).run
          (sessionAnswer salt infos 32 (Dir.answer fun _ => ω.1) (fun k a => chachaPolyOf.answer (ω.1, k) a.fst) ω.2.1 (ikm ω.2.2)))) -
      share (fun ω : Equiv.Perm (Words 32 16) × ((Bytes 64 → Equiv.Perm (Words 32 8)) × (SecretP256 × SecretP256)) =>
        acc ((a.play (pub ++ [K ω.2.2.1, K ω.2.2.2])).run
          (sessionAnswer salt infos 32 (Dir.answer fun _ => ω.1) (fun k a => chachaPolyOf.answer (ω.1, k) a.snd) ω.2.1 (ikm ω.2.2))))| ≤
      2 * (∑ i, chachaForgery L (m i) + usersBound u q (n * L) + sessionsBound q u ℓ (2 / 2 ^ 255) + e / 2 ^ 253) := by
  have hr := resolves_play a (formal Spec.P256.n pub)
  have h1 := abs_le.mp (channelP256_abs hk hK a ha pub (fun (π : Equiv.Perm (Words 32 16)) E secret =>
    sessionAnswer salt infos 32 (Dir.answer fun _ => π) (fun k (a : Pair) => chachaPolyOf.answer (π, k) a.fst) E secret) fun o _ => acc o)
  have h2 := abs_le.mp (channelP256_abs hk hK a ha pub (fun (π : Equiv.Perm (Words 32 16)) E secret =>
    sessionAnswer salt infos 32 (Dir.answer fun _ => π) (fun k (a : Pair) => chachaPolyOf.answer (π, k) a.snd) E secret) fun o _ => acc o)
  have h3 := abs_le.mp (C134_chacha_privacy ikm (agreedP256_length hk) _ (agreedP256_share hk) salt hs hℓ u infos hi _ L q n m hL hT (hc _ hr) (he _ hr)
    (hp _ hr) acc)
  rw [abs_le]
  constructor <;> linarith [h1.1, h1.2, h2.1, h2.2, h3.1, h3.2]

/-- **C140.**  The same for AES-GCM with keys of `k` bytes: forgeries. -/
theorem C140_gcm_forgery (ikm : SecretP256 × SecretP256 → List U8) (hk : AgreedP256 ikm)
    (K : SecretP256 → P256Point) (hK : PublicP256 K) (pub : List P256Point) (salt : List U8) (hs : salt.length ≤ 64) {ℓ : Nat} (hℓ : ℓ < 2 ^ 54) (u : Nat)
    (infos : Fin u → Infos ℓ) (hi : Function.Injective infos) {k : Nat} (hk' : k ≤ 32) {O : Type}
    (a : ChannelAttack ((Dir (Bytes 64) (Words 32 8) ⊕ Dir (Bytes k) (Bytes 16)) ⊕ Fin u × Ask) ((Words 32 8 ⊕ Bytes 16) ⊕ Seen) O)
    (e L q n : Nat) (m : Fin u → Nat) (hL : L < 2 ^ 32) (hn : ∀ i, m i * L < 2 ^ 64) (hT : q + u * ℓ < 2 ^ 256) (ha : a.Compares e)
    (hc : ∀ p, a.Resolves p → p.Counts q n) (he : ∀ p, a.Resolves p → p.Each m) (hp : ∀ p, a.Resolves p → ByRulesEach id L p fun _ => []) :
    share (fun ω : (Bytes k → Equiv.Perm (Bytes 16)) × ((Bytes 64 → Equiv.Perm (Words 32 8)) × (SecretP256 × SecretP256)) =>
        Decrypted ((a.play (pub ++ [K ω.2.2.1, K ω.2.2.2])).answers
          (sessionAnswer salt infos k (Dir.answer ω.1) (fun k' a => (aesGcmOf k).answer (ω.1, k') a) ω.2.1 (ikm ω.2.2)))) ≤
      ∑ i, gcmForgery L (m i) + keysBound k u q + sessionsBound q u ℓ (2 / 2 ^ 255) + e / 2 ^ 253 := by
  have hr := resolves_play a (formal Spec.P256.n pub)
  have h1 := (abs_le.mp (channelP256_abs hk hK a ha pub (fun (F : Bytes k → Equiv.Perm (Bytes 16)) E secret =>
    sessionAnswer salt infos k (Dir.answer F) (fun k' a => (aesGcmOf k).answer (F, k') a) E secret) fun _ l => Decrypted l)).2
  have h2 := C134_gcm_forgery ikm (agreedP256_length hk) _ (agreedP256_share hk) salt hs hℓ u infos hi hk' _ L q n m hL hn hT (hc _ hr) (he _ hr) (hp _ hr)
  linarith

/-- **C140.**  The same for AES-GCM with keys of `k` bytes: messages. -/
theorem C140_gcm_privacy (ikm : SecretP256 × SecretP256 → List U8) (hk : AgreedP256 ikm)
    (K : SecretP256 → P256Point) (hK : PublicP256 K) (pub : List P256Point) (salt : List U8) (hs : salt.length ≤ 64) {ℓ : Nat} (hℓ : ℓ < 2 ^ 54) (u : Nat)
    (infos : Fin u → Infos ℓ) (hi : Function.Injective infos) {k : Nat} (hk' : k ≤ 32) {O : Type}
    (a : ChannelAttack ((Dir (Bytes 64) (Words 32 8) ⊕ Dir (Bytes k) (Bytes 16)) ⊕ Fin u × Pair) ((Words 32 8 ⊕ Bytes 16) ⊕ Seen) O)
    (e L q n : Nat) (m : Fin u → Nat) (hL : L < 2 ^ 32) (hn : ∀ i, m i * L < 2 ^ 64) (hT : q + u * ℓ < 2 ^ 256) (ha : a.Compares e)
    (hc : ∀ p, a.Resolves p → p.Counts q n) (he : ∀ p, a.Resolves p → p.Each m)
    (hp : ∀ p, a.Resolves p → ByRulesEach Pair.fst L p fun _ => []) (acc : O → Prop) :
    |share (fun ω : (Bytes k → Equiv.Perm (Bytes 16)) × ((Bytes 64 → Equiv.Perm (Words 32 8)) × (SecretP256 × SecretP256)) =>
        acc ((a.play (pub ++ [K ω.2.2.1, K ω.2.2.2])).run
          (sessionAnswer salt infos k (Dir.answer ω.1) (fun k' a => (aesGcmOf k).answer (ω.1, k') a.fst) ω.2.1 (ikm ω.2.2)))) -
      share (fun ω : (Bytes k → Equiv.Perm (Bytes 16)) × ((Bytes 64 → Equiv.Perm (Words 32 8)) × (SecretP256 × SecretP256)) =>
        acc ((a.play (pub ++ [K ω.2.2.1, K ω.2.2.2])).run
          (sessionAnswer salt infos k (Dir.answer ω.1) (fun k' a => (aesGcmOf k).answer (ω.1, k') a.snd) ω.2.1 (ikm ω.2.2))))| ≤
      ∑ i, gcmPrivacy L (m i) + 2 * keysBound k u q + 2 * sessionsBound q u ℓ (2 / 2 ^ 255) + 2 * (e / 2 ^ 253) := by
  have hr := resolves_play a (formal Spec.P256.n pub)
  have h1 := abs_le.mp (channelP256_abs hk hK a ha pub (fun (F : Bytes k → Equiv.Perm (Bytes 16)) E secret =>
    sessionAnswer salt infos k (Dir.answer F) (fun k' (a : Pair) => (aesGcmOf k).answer (F, k') a.fst) E secret) fun o _ => acc o)
  have h2 := abs_le.mp (channelP256_abs hk hK a ha pub (fun (F : Bytes k → Equiv.Perm (Bytes 16)) E secret =>
    sessionAnswer salt infos k (Dir.answer F) (fun k' (a : Pair) => (aesGcmOf k).answer (F, k') a.snd) E secret) fun o _ => acc o)
  have h3 := abs_le.mp (C134_gcm_privacy ikm (agreedP256_length hk) _ (agreedP256_share hk) salt hs hℓ u infos hi hk' _ L q n m hL hn hT (hc _ hr)
    (he _ hr) (hp _ hr) acc)
  rw [abs_le]
  constructor <;> linarith [h1.1, h1.2, h2.1, h2.2, h3.1, h3.2]

/-! ## Cases -/

/-- **C140.**  There are public keys and common secrets for all secrets, so that the theorems are not about nothing. -/
theorem C140_agreed : (∃ K, PublicP256 K) ∧ ∃ ikm, AgreedP256 ikm := by
  constructor
  · refine ⟨fun d => (d.val + 1) • baseP256, fun d => ?_⟩
    obtain ⟨h1, h2⟩ := secretP256_reach d
    obtain ⟨x, y, h3, h4⟩ := point_mul_coords _ h1
    rw [h2] at h4
    exact ⟨x, y, h3, h4⟩
  · exact ⟨fun ω => bytesLe (xP256 (((ω.1.val + 1) * (ω.2.val + 1)) • baseP256)).val, fun ω => exchangeP256 ω.1 ω.2⟩

/-- **C140.**  Both sides have the same common secret, which has from 1 to 32 bytes. -/
theorem C140_same (ikm : SecretP256 × SecretP256 → List U8) (hk : AgreedP256 ikm) (a b : SecretP256) :
    ikm (a, b) = ikm (b, a) ∧ 0 < (ikm (a, b)).length ∧ (ikm (a, b)).length ≤ 32 :=
  ⟨by rw [agreedP256_eq hk, agreedP256_eq hk, mul_comm], agreedP256_length32 hk _⟩

/-- **C140.**  But the length depends on the secrets: for some it is one byte, since `to_le_bytes` writes no zeros at the end. -/
theorem C140_length_refuted (ikm : SecretP256 × SecretP256 → List U8) (hk : AgreedP256 ikm) : ¬ ∀ ω, (ikm ω).length = 32 := by
  intro h
  have hc : (((0x66485c780e2f83d72433bd5d84a06bb6541c2af31dae871728bf856a174f93f4 : Nat) : ZMod P256.p)) ^ 2 =
      0 ^ 3 - 3 * 0 + ((Spec.P256.b : Nat) : ZMod P256.p) := by
    rw [← Nat.cast_pow, mul_zero, sub_zero, zero_pow (by decide), zero_add, ZMod.natCast_eq_natCast_iff']
    decide +kernel
  obtain ⟨k, ⟨hk1, x, y, h1, hx, hy⟩, -⟩ := C66_point_mul_onto 0 _ hc
  have hv : val (AbstractInt.enc 256 k) = k := toBigUint_enc 256 k
  obtain ⟨x', y', h2, h3⟩ := point_mul_coords _ (enc_reach_n ⟨k, hk1⟩).1
  obtain ⟨rfl, rfl⟩ := Prod.mk.inj (Except.ok.inj (h2.symm.trans h1))
  rw [hv] at h3
  have hk0 : k ≠ 0 := by
    rintro rfl
    rw [zero_nsmul] at h3
    have hz : val y' = 0 := h3.2.2.2
    rw [hz, Nat.cast_zero, eq_comm, ZMod.natCast_eq_zero_iff] at hy
    exact absurd hy (by decide +kernel)
  have hlt : k - 1 < Spec.P256.n - 1 := by omega
  have hl := h (⟨k - 1, hlt⟩, ⟨0, by decide +kernel⟩)
  rw [agreedP256_eq hk] at hl
  have e : (k - 1 + 1) * (0 + 1) = k := by omega
  have h0 : xP256 (k • baseP256) = 0 := by
    generalize k • baseP256 = P at h3
    cases P with
    | zero => rfl
    | some a b hn => exact h3.2.2.1.symm.trans hx
  dsimp only at hl
  rw [e, h0, ZMod.val_zero, length_bytesLe] at hl
  exact absurd hl (by decide)

/-- The attacks on the sessions are those of C134. -/
example (ikm : SecretP256 × SecretP256 → List U8) (hk : AgreedP256 ikm) (K : SecretP256 → P256Point) (hK : PublicP256 K) :=
  C140_chacha_forgery ikm hk K hK [baseP256] [7] (by decide) (by decide) 2 twoInfos twoInfos_inj (sumAttack (.ret ()) crossAttack) 1 3 1 2 (fun _ => 1)
    (by norm_num) (by norm_num) (sumAttack_compares _ _) (fun _ h => by rcases sumAttack_resolves h with rfl | rfl; exacts [trivial, crossAttack_counts])
    (fun _ h => by rcases sumAttack_resolves h with rfl | rfl; exacts [trivial, crossAttack_each])
    (fun _ h => by rcases sumAttack_resolves h with rfl | rfl; exacts [trivial, crossAttack_rules])

example (ikm : SecretP256 × SecretP256 → List U8) (hk : AgreedP256 ikm) (K : SecretP256 → P256Point) (hK : PublicP256 K) :=
  C140_chacha_privacy ikm hk K hK [baseP256] [7] (by decide) (by decide) 2 twoInfos twoInfos_inj (sumAttack (.ret true) (compareSessions _ _)) 1 3 0 2
    (fun _ => 1) (by norm_num) (by norm_num) (sumAttack_compares _ _)
    (fun _ h => by rcases sumAttack_resolves h with rfl | rfl; exacts [trivial, ⟨1, rfl, fun _ => ⟨0, rfl, fun _ => trivial⟩⟩])
    (fun _ h => by rcases sumAttack_resolves h with rfl | rfl; exacts [trivial, ⟨0, rfl, fun _ => ⟨0, rfl, fun _ => trivial⟩⟩])
    (fun _ h => by rcases sumAttack_resolves h with rfl | rfl; exacts [trivial, (compareSessions_rules _ _)]) (fun b => b = true)

example (ikm : SecretP256 × SecretP256 → List U8) (hk : AgreedP256 ikm) (K : SecretP256 → P256Point) (hK : PublicP256 K) :=
  C140_gcm_privacy ikm hk K hK [baseP256] [7] (by decide) (by decide) 2 twoInfos twoInfos_inj (k := 16) (by decide)
    (sumAttack (.ret true) (compareSessions _ _)) 1 3 0 2 (fun _ => 1) (by norm_num) (by norm_num) (by norm_num) (sumAttack_compares _ _)
    (fun _ h => by rcases sumAttack_resolves h with rfl | rfl; exacts [trivial, ⟨1, rfl, fun _ => ⟨0, rfl, fun _ => trivial⟩⟩])
    (fun _ h => by rcases sumAttack_resolves h with rfl | rfl; exacts [trivial, ⟨0, rfl, fun _ => ⟨0, rfl, fun _ => trivial⟩⟩])
    (fun _ h => by rcases sumAttack_resolves h with rfl | rfl; exacts [trivial, (compareSessions_rules _ _)]) (fun b => b = true)

example (ikm : SecretP256 × SecretP256 → List U8) (hk : AgreedP256 ikm) (K : SecretP256 → P256Point) (hK : PublicP256 K) :=
  C140_gcm_forgery ikm hk K hK [baseP256] [7] (by decide) (by decide) 2 twoInfos twoInfos_inj (k := 32) (by decide)
    (sumAttack (.ret ()) (.ask (.inr (0, .dec zeroIv [] [] ⟨List.replicate 16 0, List.length_replicate⟩)) fun _ => .ret ())) 1 3 0 1 (fun _ => 1)
    (by norm_num) (by norm_num) (by norm_num) (sumAttack_compares _ _)
    (fun _ h => by rcases sumAttack_resolves h with rfl | rfl; exacts [trivial, ⟨0, rfl, fun _ => trivial⟩])
    (fun _ h => by rcases sumAttack_resolves h with rfl | rfl; exacts [trivial, ⟨0, rfl, fun _ => trivial⟩])
    (fun _ h => by rcases sumAttack_resolves h with rfl | rfl; exacts [trivial, ⟨⟨List.not_mem_nil, by decide⟩, fun _ => trivial⟩])

/-- `2²⁰` sessions with `2¹⁰` messages of `2¹²` bytes each and short strings, `2⁸⁰` questions and `2¹⁶⁰` comparisons. -/
example : (2 : ℚ) ^ 20 * chachaForgery (2 ^ 9) (2 ^ 10) + usersBound (2 ^ 20) (2 ^ 80) (2 ^ 30 * 2 ^ 9) +
    sessionsBound (2 ^ 80) (2 ^ 20) 1 (2 / 2 ^ 255) + 2 ^ 160 / 2 ^ 253 < 1 / 2 ^ 50 := by
  rw [chachaForgery, usersBound, sessionsBound, prfBound, extractBound, show (2 : ℚ) ^ 513 = (2 ^ 171) ^ 3 from by rw [← pow_mul],
    show (2 : ℚ) ^ 257 = 2 ^ 256 * 2 from pow_succ ..]
  norm_num

end Hacspec.Props
