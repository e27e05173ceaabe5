import Verif.Lemmas.Leak.Sync
import Verif.Model.Leak.Curves
import Verif.Lemmas.X25519

/-! # Scalar multiplication: which data the events depend on -/

namespace Hacspec.Leak

theorem res_congr {α β : Type} {c : L α} {x : M α} {f : α → L β} {g : α → M β} (h : c.res = x)
    (hf : ∀ a, (f a).res = g a) : (c >>= f).res = x >>= g := by
  rw [res_bind, h]
  exact congrArg _ (funext hf)

theorem L.assoc {α β γ : Type} (c : L α) (f : α → L β) (g : β → L γ) :
    (c >>= f) >>= g = c >>= fun a => f a >>= g := by
  obtain ⟨t, r⟩ := c
  cases r with
  | error e => rfl
  | ok a =>
    simp only [bind_def, L.bind]
    cases (f a).res <;> simp

theorem res_two {α β γ : Type} (x : M α) (y : M β) (f : α → β → γ) :
    (do let a ← lift x; let b ← lift y; .ok (f a b) : L γ).res = (do let a ← x; let b ← y; .ok (f a b)) := by
  simp only [res_bind, res_lift, res_ok]

theorem res_two' {α β γ : Type} (x : M α) (y : α → M β) (f : β → L γ) (g : β → M γ) (h : ∀ b, (f b).res = g b) :
    (do let a ← lift x; let b ← lift (y a); f b).res = (do let a ← x; let b ← y a; g b) := by
  simp only [res_bind, res_lift, h]

theorem res_step {α : Type} (x : M Bool) (y z : M α) (s : α → α) :
    (do let b ← lift x; branch (b = true) (do let a ← lift y; .ok (s a)) (lift z)).res =
      (do let b ← x; if b then do let a ← y; .ok (s a) else z) := by
  simp only [res_bind, res_lift, res_branch, res_ok]

theorem res_lift_eq {α : Type} (x : M α) : (lift x).res = x := rfl

end Hacspec.Leak

namespace Hacspec.Leak.Curve25519

open Leak.Seq
open Hacspec.Curve25519 (F S Point swap pointAddAndDouble)
open AbstractInt (Canvas)

theorem res_maskScalar (s : List U8) : (maskScalar s).res = Hacspec.Curve25519.maskScalar s := by
  unfold maskScalar Hacspec.Curve25519.maskScalar
  simp only [res_bind, res_idx, res_setIdx]

theorem res_decodeScalar (s : List U8) : (decodeScalar s).res = Hacspec.Curve25519.decodeScalar s :=
  res_congr (res_maskScalar s) fun _ => res_lift_eq _

theorem res_decodePoint (u : List U8) : (decodePoint u).res = Hacspec.Curve25519.decodePoint u :=
  res_congr (res_idx _ _) fun _ => res_congr (res_setIdx _ _ _) fun _ => res_two _ _ fun a b => (a, b)

theorem res_encodePoint (p : Point) : (encodePoint p).res = Hacspec.Curve25519.encodePoint p :=
  res_two' _ _ (fun b => updateStart (Hacspec.Seq.new 32) (NatMod.toLeBytes b)) _ fun _ => res_updateStart _ _

theorem res_ladderStep (k : Canvas) (init : Point) (i : Nat) (acc : Point × Point) :
    (ladderStep k init i acc).res = Hacspec.Curve25519.ladderStep k init i acc := by
  exact res_step _ _ _ swap

theorem res_montgomeryLadder (k : Canvas) (init : Point) :
    (montgomeryLadder k init).res = Hacspec.Curve25519.montgomeryLadder k init := by
  refine res_congr (res_lift_eq _) fun _ => res_congr (res_lift_eq _) fun _ => res_congr ?_ fun _ => res_ok _
  rw [res_loop]
  simp only [res_ladderStep]

theorem res_scalarmult (s p : List U8) : (scalarmult s p).res = Hacspec.Curve25519.scalarmult s p :=
  res_congr (res_decodeScalar s) fun _ => res_congr (res_decodePoint p) fun _ =>
    res_congr (res_montgomeryLadder _ _) fun _ => res_encodePoint _

section
open Spec
open Hacspec.Curve25519 (decodeScalar_ok scalar_lt bit_scalar)

theorem decodeScalar_same {s s' : List U8} (h : s.length = 32) (h' : s'.length = 32) :
    Same (fun k k' => k = S.enc (X25519.scalar s) ∧ k' = S.enc (X25519.scalar s')) (decodeScalar s) (decodeScalar s') := by
  refine ⟨?_, ?_⟩
  · have hl : Len s s' := by unfold Len; omega
    have hm : Same Len (maskScalar s) (maskScalar s') := by
      unfold maskScalar
      refine Same.bind (Same.idx hl rfl) fun _ _ _ => Same.bind (Same.setIdx hl rfl) fun _ _ h1 => ?_
      refine Same.bind (Same.idx h1 rfl) fun _ _ _ => Same.bind (Same.setIdx h1 rfl) fun _ _ h2 => ?_
      exact Same.bind (Same.idx h2 rfl) fun _ _ _ => Same.setIdx h2 rfl
    have e : (decodeScalar s).res = .ok (S.enc (X25519.scalar s)) := by rw [res_decodeScalar, decodeScalar_ok h]
    have e' : (decodeScalar s').res = .ok (S.enc (X25519.scalar s')) := by rw [res_decodeScalar, decodeScalar_ok h']
    have : Sync Any (decodeScalar s) (decodeScalar s') := by
      unfold decodeScalar
      exact Sync.bind hm.sync fun _ _ _ _ _ => Sync.lift fun _ _ _ _ => trivial
    exact (this _ _ e e').1
  · rw [res_decodeScalar, res_decodeScalar, decodeScalar_ok h, decodeScalar_ok h']
    exact ⟨rfl, rfl⟩

theorem decodePoint_sync {u u' : List U8} (h : Len u u') : Sync Any (decodePoint u) (decodePoint u') := by
  unfold decodePoint
  refine Sync.bind (Same.idx h rfl).sync fun _ _ _ _ _ => Sync.bind (Same.setIdx h rfl).sync fun _ _ _ _ _ => ?_
  refine Sync.bind (R := Any) (Sync.lift fun _ _ _ _ => trivial) fun _ _ _ _ _ => ?_
  exact Sync.bind (R := Any) (Sync.lift fun _ _ _ _ => trivial) fun _ _ _ _ _ => Sync.ok trivial

/-- Each step shows one bit of the scalar. -/
theorem ladderStep_tells {k k' : Nat} (hk : k < 2 ^ 255) (hk' : k' < 2 ^ 255) {i : Nat} (hi : i < 256)
    (P P' : Point) (a a' : Point × Point) :
    Tells (fun _ _ => k.testBit (255 - i) = k'.testBit (255 - i))
      (ladderStep (S.enc k) P i a) (ladderStep (S.enc k') P' i a') := by
  unfold ladderStep
  refine Tells.bind (R := fun b b' => b = k.testBit (255 - i) ∧ b' = k'.testBit (255 - i)) (Tells.lift ?_) ?_
  · intro b b' hb hb'
    rw [bit_scalar hk hi, Except.ok.injEq] at hb
    rw [bit_scalar hk' hi, Except.ok.injEq] at hb'
    exact ⟨hb.symm, hb'.symm⟩
  · rintro b b' - - ⟨rfl, rfl⟩
    refine Tells.branch (fun h h' => ?_) (fun h h' => ?_)
    · exact Tells.bind (R := Any) (Tells.lift fun _ _ _ _ => trivial) fun _ _ _ _ _ => Tells.ok (by rw [h, h'])
    · refine Tells.lift fun _ _ _ _ => ?_
      rw [Bool.not_eq_true] at h h'
      rw [h, h']

theorem ladderStep_sync {k i : Nat} (hk : k < 2 ^ 255) (hi : i < 256) (P P' : Point) (a a' : Point × Point) :
    Sync Any (ladderStep (S.enc k) P i a) (ladderStep (S.enc k) P' i a') := by
  unfold ladderStep
  refine Sync.bind (R := fun b b' => b = k.testBit (255 - i) ∧ b' = k.testBit (255 - i)) (Sync.lift ?_) ?_
  · intro b b' hb hb'
    rw [bit_scalar hk hi, Except.ok.injEq] at hb hb'
    exact ⟨hb.symm, hb'.symm⟩
  · rintro b b' - - ⟨rfl, rfl⟩
    refine Sync.branch Iff.rfl (fun h h' => ?_) (fun h h' => Sync.lift fun _ _ _ _ => trivial)
    exact Sync.bind (R := Any) (Sync.lift fun _ _ _ _ => trivial) fun _ _ _ _ _ => Sync.ok trivial

theorem testBit_all {k k' : Nat} (hk : k < 2 ^ 256) (hk' : k' < 2 ^ 256)
    (h : ∀ j, j < 256 → k.testBit (255 - j) = k'.testBit (255 - j)) : k = k' := by
  apply Nat.eq_of_testBit_eq
  intro i
  by_cases hi : i < 256
  · have := h (255 - i) (by omega)
    rwa [show 255 - (255 - i) = i by omega] at this
  · rw [Nat.testBit_lt_two_pow (Nat.lt_of_lt_of_le hk (Nat.pow_le_pow_right (by decide) (by omega))),
      Nat.testBit_lt_two_pow (Nat.lt_of_lt_of_le hk' (Nat.pow_le_pow_right (by decide) (by omega)))]

/-- The whole ladder shows the whole scalar. -/
theorem montgomeryLadder_tells {k k' : Nat} (hk : k < 2 ^ 255) (hk' : k' < 2 ^ 255) (P P' : Point) :
    Tells (fun _ _ => k = k') (montgomeryLadder (S.enc k) P) (montgomeryLadder (S.enc k') P') := by
  unfold montgomeryLadder
  refine Tells.bind (R := Any) (Tells.lift fun _ _ _ _ => trivial) fun _ _ _ _ _ => ?_
  refine Tells.bind (R := Any) (Tells.lift fun _ _ _ _ => trivial) fun _ _ _ _ _ => ?_
  refine Tells.bind (Tells.loop (fun i _ _ => ∀ j, j < i → k.testBit (255 - j) = k'.testBit (255 - j)) ?_ ?_) ?_
  · intro j hj; omega
  · intro i hi t t' ht
    refine (ladderStep_tells hk hk' hi P P' t t').mono fun _ _ h j hj => ?_
    rcases Nat.lt_succ_iff_lt_or_eq.1 hj with h' | rfl
    · exact ht j h'
    · exact h
  · intro _ _ _ _ h
    have hp : (2 : Nat) ^ 255 < 2 ^ 256 := Nat.pow_lt_pow_right (by decide) (by decide)
    exact Tells.ok (testBit_all (by omega) (by omega) h)

theorem montgomeryLadder_sync {k : Nat} (hk : k < 2 ^ 255) (P P' : Point) :
    Sync Any (montgomeryLadder (S.enc k) P) (montgomeryLadder (S.enc k) P') := by
  unfold montgomeryLadder
  refine Sync.bind (R := Any) (Sync.lift fun _ _ _ _ => trivial) fun _ _ _ _ _ => ?_
  refine Sync.bind (R := Any) (Sync.lift fun _ _ _ _ => trivial) fun _ _ _ _ _ => ?_
  refine Sync.bind (Sync.loop (fun _ => Any) rfl trivial fun i hi t t' _ => ladderStep_sync hk hi P P' t t') ?_
  exact fun _ _ _ _ _ => Sync.ok trivial

theorem updateStart_tells {s s' v v' : List U8} : Tells (fun _ _ => v.length = v'.length) (updateStart s v) (updateStart s' v') := by
  unfold updateStart updateSub
  refine Tells.bind Tells.require fun _ _ _ _ _ => Tells.bind Tells.require fun _ _ _ _ _ => ?_
  refine (Tells.loop' (fun _ => Any) trivial fun i hi t t' _ => ?_).mono fun _ _ h => h.1
  exact Tells.bind (R := Any) (Tells.idx.mono fun _ _ _ => trivial) fun _ _ _ _ _ => Tells.setIdx.mono fun _ _ _ => trivial

/-- The number of bytes of a number, without leading zeros. -/
def size (n : Nat) : Nat := (AbstractInt.bytesLe n).length

theorem encode_res {x y yi b : Canvas} (h1 : NatMod.inv F y = .ok yi) (h2 : NatMod.mul F x yi = .ok b) :
    Hacspec.Curve25519.encodePoint (x, y) = .ok (leBytes 32 (AbstractInt.toBigUint b)) ∧
      (NatMod.toLeBytes b).length = size (leVal (leBytes 32 (AbstractInt.toBigUint b))) := by
  have e : NatMod.mul F x yi = .ok (F.enc ((AbstractInt.toBigUint x * AbstractInt.toBigUint yi) % F.n)) := by
    rw [← NatMod.mul_enc Hacspec.Curve25519.F_WF]; unfold NatMod.mul; simp only [NatMod.toBigUint_tenc]
  have hlt : (AbstractInt.toBigUint x * AbstractInt.toBigUint yi) % F.n < F.n :=
    Nat.mod_lt _ (Nat.lt_of_lt_of_le (Nat.two_pow_pos 128) Hacspec.Curve25519.F_big)
  generalize (AbstractInt.toBigUint x * AbstractInt.toBigUint yi) % F.n = v at e hlt
  rw [h2, Except.ok.injEq] at e
  have hlt' : v < 2 ^ 256 := Nat.lt_trans hlt Hacspec.Curve25519.F_lt
  have hv : leVal (leBytes 32 v) = v := by
    rw [leVal_leBytes, Nat.mod_eq_of_lt (by rw [show (256 : Nat) ^ 32 = 2 ^ 256 from (Nat.pow_mul 2 8 32).symm]; exact hlt')]
  subst e
  rw [NatMod.toBigUint_tenc, hv]
  refine ⟨?_, by rw [NatMod.toLeBytes_enc]; rfl⟩
  unfold Hacspec.Curve25519.encodePoint
  dsimp only
  rw [h1, bind_ok, h2, bind_ok, NatMod.toLeBytes_enc, Hacspec.Curve25519.bytesLe_pad hlt']

theorem encodePoint_tells (p p' : Point) :
    Tells (fun r r' => size (leVal r) = size (leVal r')) (encodePoint p) (encodePoint p') := by
  obtain ⟨x, y⟩ := p
  obtain ⟨x', y'⟩ := p'
  have main : Tells (fun _ _ => ∃ z z', Hacspec.Curve25519.encodePoint (x, y) = .ok z ∧
      Hacspec.Curve25519.encodePoint (x', y') = .ok z' ∧ size (leVal z) = size (leVal z'))
      (encodePoint (x, y)) (encodePoint (x', y')) := by
    unfold encodePoint
    refine Tells.bind (R := Any) (Tells.lift fun _ _ _ _ => trivial) fun yi yi' h1 h1' _ => ?_
    refine Tells.bind (R := Any) (Tells.lift fun _ _ _ _ => trivial) fun b b' h2 h2' _ => ?_
    rw [res_lift] at h1 h1' h2 h2'
    obtain ⟨g1, g2⟩ := encode_res h1 h2
    obtain ⟨g1', g2'⟩ := encode_res h1' h2'
    refine updateStart_tells.mono fun _ _ h => ⟨_, _, g1, g1', ?_⟩
    rw [← g2, ← g2']
    exact h
  refine main.mono' fun r r' hr hr' h => ?_
  obtain ⟨z, z', h1, h2, h3⟩ := h
  rw [res_encodePoint, h1, Except.ok.injEq] at hr
  rw [res_encodePoint, h2, Except.ok.injEq] at hr'
  rw [← hr, ← hr']
  exact h3

theorem encodePoint_sync (p p' : Point)
    (h : ∀ r r', Hacspec.Curve25519.encodePoint p = .ok r → Hacspec.Curve25519.encodePoint p' = .ok r' →
      size (leVal r) = size (leVal r')) : Sync Any (encodePoint p) (encodePoint p') := by
  obtain ⟨x, y⟩ := p
  obtain ⟨x', y'⟩ := p'
  unfold encodePoint
  refine Sync.bind (R := Any) (Sync.lift fun _ _ _ _ => trivial) fun yi yi' h1 h1' _ => ?_
  refine Sync.bind (R := Any) (Sync.lift fun _ _ _ _ => trivial) fun b b' h2 h2' _ => ?_
  rw [res_lift] at h1 h1' h2 h2'
  obtain ⟨g1, g2⟩ := encode_res h1 h2
  obtain ⟨g1', g2'⟩ := encode_res h1' h2'
  have := h _ _ g1 g1'
  rw [← g2, ← g2'] at this
  exact (updateStart_same rfl this).sync.mono fun _ _ _ _ _ => trivial

/-- The events of the multiplication show the scalar and the size of the result. -/
theorem scalarmult_tells {s s' u u' : List U8} (hs : s.length = 32) (hs' : s'.length = 32) (hu : Len u u') :
    Tells (fun r r' => X25519.scalar s = X25519.scalar s' ∧ size (leVal r) = size (leVal r'))
      (scalarmult s u) (scalarmult s' u') := by
  unfold scalarmult
  refine Tells.bind (decodeScalar_same hs hs').tells ?_
  rintro k k' - - ⟨rfl, rfl⟩
  refine Tells.bind (decodePoint_sync hu).tells fun p p' _ _ _ => ?_
  refine Tells.bind (montgomeryLadder_tells (scalar_lt s) (scalar_lt s') p p') fun q q' _ _ h => ?_
  exact (encodePoint_tells q q').mono fun _ _ h' => ⟨h, h'⟩

/-- And nothing else. -/
theorem scalarmult_sync {s s' u u' r r' : List U8} (hs : s.length = 32) (hs' : s'.length = 32) (hu : Len u u')
    (hk : X25519.scalar s = X25519.scalar s') (hr : Hacspec.Curve25519.scalarmult s u = .ok r)
    (hr' : Hacspec.Curve25519.scalarmult s' u' = .ok r') (h : size (leVal r) = size (leVal r')) :
    Sync Any (scalarmult s u) (scalarmult s' u') := by
  unfold scalarmult
  refine Sync.bind (decodeScalar_same hs hs').sync ?_
  rintro k k' a1 b1 ⟨rfl, rfl⟩
  refine Sync.bind (decodePoint_sync hu) fun p p' a2 b2 _ => ?_
  rw [← hk] at b1 ⊢
  refine Sync.bind (montgomeryLadder_sync (scalar_lt s) p p') fun q q' a3 b3 _ => encodePoint_sync q q' ?_
  intro z z' hz hz'
  rw [res_decodeScalar] at a1 b1
  rw [res_decodePoint] at a2 b2
  rw [res_montgomeryLadder] at a3 b3
  unfold Hacspec.Curve25519.scalarmult at hr hr'
  rw [a1, bind_ok, a2, bind_ok, a3, bind_ok, hz, Except.ok.injEq] at hr
  rw [b1, bind_ok, b2, bind_ok, b3, bind_ok, hz', Except.ok.injEq] at hr'
  rw [hr, hr']
  exact h

theorem size_le_iff {n j : Nat} (hj : 1 ≤ j) : size n ≤ j ↔ n < 256 ^ j := by
  unfold size
  rw [AbstractInt.length_bytesLe]
  have hp : (256 : Nat) ^ j = 2 ^ (8 * j) := by rw [Nat.pow_mul]
  rw [hp]
  by_cases h0 : n = 0
  · subst h0
    simp only [Nat.log2_zero]
    exact ⟨fun _ => Nat.two_pow_pos _, fun _ => by omega⟩
  · rw [← Nat.log2_lt h0]
    omega

theorem size_pos (n : Nat) : 1 ≤ size n := by
  unfold size
  rw [AbstractInt.length_bytesLe]
  omega

/-- The size of a number, without the model. -/
theorem size_iff {n n' : Nat} : size n = size n' ↔ ∀ j, 1 ≤ j → (n < 256 ^ j ↔ n' < 256 ^ j) := by
  refine ⟨fun h j hj => by rw [← size_le_iff hj, ← size_le_iff hj, h], fun h => Nat.le_antisymm ?_ ?_⟩
  · exact (size_le_iff (size_pos _)).2 ((h _ (size_pos _)).2 ((size_le_iff (size_pos _)).1 Nat.le.refl))
  · exact (size_le_iff (size_pos _)).2 ((h _ (size_pos _)).1 ((size_le_iff (size_pos _)).1 Nat.le.refl))

end

end Hacspec.Leak.Curve25519

namespace Hacspec.Leak.P256

open Hacspec.P256 (F Jacobian Affine jacobianToAffine pointDouble addGeneral ascii)
open AbstractInt (Canvas)

theorem res_isPointAtInfinity (p : Jacobian) : (isPointAtInfinity p).res = Hacspec.P256.isPointAtInfinity p :=
  res_congr (res_lift_eq _) fun _ => res_ok _

theorem res_addSameX (s s' : Canvas) : (addSameX s s').res = Hacspec.P256.addSameX s s' :=
  res_congr (res_require _) fun _ => res_congr (res_lift_eq _) fun _ => res_congr (res_lift_eq _) fun _ =>
    res_congr (res_lift_eq _) fun _ => res_ok _

theorem res_eight {α δ : Type} (x1 x2 : M α) (x3 x4 : α → M α) (x5 : M α) (x6 : α → α → M α) (x7 : M α)
    (x8 : α → α → M α) (c : α → α → Bool) (y : α → α → L δ) (y' : α → α → M δ)
    (z : α → α → α → α → α → α → M δ) (h : ∀ a b, (y a b).res = y' a b) :
    (do
      let a ← lift x1; let b ← lift x2; let u ← lift (x3 b); let v ← lift (x4 a); let t ← lift x5
      let s ← lift (x6 t b); let t' ← lift x7; let s' ← lift (x8 t' a)
      branch (c u v = true) (y s s') (lift (z a b u v s s'))).res =
    (do
      let a ← x1; let b ← x2; let u ← x3 b; let v ← x4 a; let t ← x5
      let s ← x6 t b; let t' ← x7; let s' ← x8 t' a
      if c u v then y' s s' else z a b u v s s') := by
  simp only [res_bind, res_lift, res_branch, h]

theorem res_addFinite (p q : Jacobian) : (addFinite p q).res = Hacspec.P256.addFinite p q :=
  res_eight (NatMod.pow F p.z 2) (NatMod.pow F q.z 2) (NatMod.mul F p.x) (NatMod.mul F q.x) (NatMod.mul F p.y q.z)
    (NatMod.mul F) (NatMod.mul F q.y p.z) (NatMod.mul F) NatMod.eq addSameX Hacspec.P256.addSameX
    (addGeneral p.z q.z) res_addSameX

theorem res_pointAdd (p q : Jacobian) : (pointAdd p q).res = Hacspec.P256.pointAdd p q := by
  refine res_congr (res_isPointAtInfinity p) fun b => ?_
  rw [res_branch]
  cases b
  · refine res_congr (res_isPointAtInfinity q) fun b => ?_
    rw [res_branch, res_addFinite]
    rfl
  · rfl

theorem res_ladderStep (k : Canvas) (i : Nat) (w : Jacobian × Jacobian) :
    (ladderStep k i w).res = Hacspec.P256.ladderStep k i w := by
  refine res_congr (res_lift_eq _) fun b => ?_
  rw [res_bind, res_branch]
  cases b
  · refine res_congr (res_lift_eq _) fun _ => res_congr (res_pointAdd _ _) fun _ => res_congr (res_lift_eq _) fun b => ?_
    rw [res_branch]
    cases b <;> rfl
  · refine res_congr (res_lift_eq _) fun _ => res_congr (res_pointAdd _ _) fun _ => res_congr (res_lift_eq _) fun b => ?_
    rw [res_branch]
    cases b <;> rfl

theorem res_montgomeryLadder (k : Canvas) (init : Jacobian) :
    (montgomeryLadder k init).res = Hacspec.P256.montgomeryLadder k init := by
  refine res_congr (res_lift_eq _) fun _ => res_congr (res_lift_eq _) fun _ => res_congr (res_lift_eq _) fun _ =>
    res_congr ?_ fun _ => res_ok _
  rw [res_loop]
  simp only [res_ladderStep]

theorem res_pointMul (k : Canvas) : (pointMul k).res = Hacspec.P256.pointMul k :=
  res_congr (res_lift_eq _) fun _ => res_congr (res_lift_eq _) fun _ => res_congr (res_lift_eq _) fun _ =>
    res_congr (res_montgomeryLadder _ _) fun _ => res_lift_eq _

theorem isPointAtInfinity_tells (p p' : Jacobian) : Tells Any (isPointAtInfinity p) (isPointAtInfinity p') := by
  unfold isPointAtInfinity
  exact Tells.bind (R := Any) (Tells.lift fun _ _ _ _ => trivial) fun _ _ _ _ _ => Tells.ok trivial

theorem addSameX_tells (s1 s2 t1 t2 : Canvas) : Tells Any (addSameX s1 s2) (addSameX t1 t2) := by
  unfold addSameX
  refine Tells.bind Tells.require fun _ _ _ _ _ => ?_
  refine Tells.bind (R := Any) (Tells.lift fun _ _ _ _ => trivial) fun _ _ _ _ _ => ?_
  refine Tells.bind (R := Any) (Tells.lift fun _ _ _ _ => trivial) fun _ _ _ _ _ => ?_
  exact Tells.bind (R := Any) (Tells.lift fun _ _ _ _ => trivial) fun _ _ _ _ _ => Tells.ok trivial

theorem addFinite_tells (p q p' q' : Jacobian) : Tells Any (addFinite p q) (addFinite p' q') := by
  unfold addFinite
  refine Tells.bind (R := Any) (Tells.lift fun _ _ _ _ => trivial) fun _ _ _ _ _ => ?_
  refine Tells.bind (R := Any) (Tells.lift fun _ _ _ _ => trivial) fun _ _ _ _ _ => ?_
  refine Tells.bind (R := Any) (Tells.lift fun _ _ _ _ => trivial) fun _ _ _ _ _ => ?_
  refine Tells.bind (R := Any) (Tells.lift fun _ _ _ _ => trivial) fun _ _ _ _ _ => ?_
  refine Tells.bind (R := Any) (Tells.lift fun _ _ _ _ => trivial) fun _ _ _ _ _ => ?_
  refine Tells.bind (R := Any) (Tells.lift fun _ _ _ _ => trivial) fun _ _ _ _ _ => ?_
  refine Tells.bind (R := Any) (Tells.lift fun _ _ _ _ => trivial) fun _ _ _ _ _ => ?_
  refine Tells.bind (R := Any) (Tells.lift fun _ _ _ _ => trivial) fun _ _ _ _ _ => ?_
  exact Tells.branch (fun _ _ => addSameX_tells _ _ _ _) (fun _ _ => Tells.lift fun _ _ _ _ => trivial)

theorem pointAdd_tells (p q p' q' : Jacobian) : Tells Any (pointAdd p q) (pointAdd p' q') := by
  unfold pointAdd
  refine Tells.bind (isPointAtInfinity_tells p p') fun _ _ _ _ _ => ?_
  refine Tells.branch (fun _ _ => Tells.ok trivial) (fun _ _ => ?_)
  refine Tells.bind (isPointAtInfinity_tells q q') fun _ _ _ _ _ => ?_
  exact Tells.branch (fun _ _ => Tells.ok trivial) (fun _ _ => addFinite_tells _ _ _ _)

/-- Each step shows one bit of the scalar. -/
theorem ladderStep_tells {k k' : Canvas} {n n' : Nat} (hk : ∀ i, i < 256 → AbstractInt.bit k i = .ok (n.testBit i))
    (hk' : ∀ i, i < 256 → AbstractInt.bit k' i = .ok (n'.testBit i)) {i : Nat} (hi : i < 256)
    (w w' : Jacobian × Jacobian) :
    Tells (fun _ _ => n.testBit (255 - i) = n'.testBit (255 - i)) (ladderStep k i w) (ladderStep k' i w') := by
  unfold ladderStep
  refine Tells.bind (R := fun b b' => b = n.testBit (255 - i) ∧ b' = n'.testBit (255 - i)) (Tells.lift ?_) ?_
  · intro b b' hb hb'
    rw [hk _ (by omega), Except.ok.injEq] at hb
    rw [hk' _ (by omega), Except.ok.injEq] at hb'
    exact ⟨hb.symm, hb'.symm⟩
  · rintro b b' - - ⟨rfl, rfl⟩
    refine Tells.bind (R := fun _ _ => n.testBit (255 - i) = n'.testBit (255 - i))
      (Tells.branch (fun h h' => Tells.ok (by rw [h, h'])) (fun h h' => Tells.ok ?_)) fun _ _ _ _ hb => ?_
    · rw [Bool.not_eq_true] at h h'
      rw [h, h']
    · refine Tells.bind (R := Any) (Tells.lift fun _ _ _ _ => trivial) fun _ _ _ _ _ => ?_
      refine Tells.bind (pointAdd_tells _ _ _ _) fun _ _ _ _ _ => ?_
      refine Tells.bind (R := Any) (Tells.lift fun _ _ _ _ => trivial) fun _ _ _ _ _ => ?_
      exact Tells.branch (fun _ _ => Tells.ok hb) (fun _ _ => Tells.ok hb)

/-- The whole ladder shows the whole scalar. -/
theorem montgomeryLadder_tells {k k' : Canvas} {n n' : Nat} (hn : n < 2 ^ 256) (hn' : n' < 2 ^ 256)
    (hk : ∀ i, i < 256 → AbstractInt.bit k i = .ok (n.testBit i))
    (hk' : ∀ i, i < 256 → AbstractInt.bit k' i = .ok (n'.testBit i)) (P P' : Jacobian) :
    Tells (fun _ _ => n = n') (montgomeryLadder k P) (montgomeryLadder k' P') := by
  unfold montgomeryLadder
  refine Tells.bind (R := Any) (Tells.lift fun _ _ _ _ => trivial) fun _ _ _ _ _ => ?_
  refine Tells.bind (R := Any) (Tells.lift fun _ _ _ _ => trivial) fun _ _ _ _ _ => ?_
  refine Tells.bind (R := Any) (Tells.lift fun _ _ _ _ => trivial) fun _ _ _ _ _ => ?_
  refine Tells.bind (Tells.loop (fun i _ _ => ∀ j, j < i → n.testBit (255 - j) = n'.testBit (255 - j)) ?_ ?_) ?_
  · intro j hj; omega
  · intro i hi t t' ht
    refine (ladderStep_tells hk hk' hi t t').mono fun _ _ h j hj => ?_
    rcases Nat.lt_succ_iff_lt_or_eq.1 hj with h' | rfl
    · exact ht j h'
    · exact h
  · intro _ _ _ _ h
    exact Tells.ok (Curve25519.testBit_all hn hn' h)

theorem pointMul_tells {k k' : Canvas} {n n' : Nat} (hn : n < 2 ^ 256) (hn' : n' < 2 ^ 256)
    (hk : ∀ i, i < 256 → AbstractInt.bit k i = .ok (n.testBit i))
    (hk' : ∀ i, i < 256 → AbstractInt.bit k' i = .ok (n'.testBit i)) :
    Tells (fun _ _ => n = n') (pointMul k) (pointMul k') := by
  unfold pointMul
  refine Tells.bind (R := Any) (Tells.lift fun _ _ _ _ => trivial) fun _ _ _ _ _ => ?_
  refine Tells.bind (R := Any) (Tells.lift fun _ _ _ _ => trivial) fun _ _ _ _ _ => ?_
  refine Tells.bind (R := Any) (Tells.lift fun _ _ _ _ => trivial) fun _ _ _ _ _ => ?_
  refine Tells.bind (montgomeryLadder_tells hn hn' hk hk' _ _) fun _ _ _ _ h => ?_
  exact Tells.lift fun _ _ _ _ => h

theorem iterate_congr {σ : Type} {n : Nat} {b b' : Nat → σ → L σ} (h : ∀ i, i < n → b i = b' i) (s : σ) :
    iterate n b s = iterate n b' s := by
  induction n with
  | zero => rfl
  | succ n ih => rw [iterate, iterate, ih fun i hi => h i (Nat.lt_succ_of_lt hi), h n (Nat.lt_succ_self n)]

theorem pointMul_congr {k k' : Canvas} (h : ∀ i, i < 256 → AbstractInt.bit k i = AbstractInt.bit k' i) :
    pointMul k = pointMul k' := by
  have e : ∀ s, loop 256 (ladderStep k) s = loop 256 (ladderStep k') s := by
    intro s
    unfold loop
    rw [iterate_congr (b' := ladderStep k') ?_ s]
    intro i _
    funext w
    unfold ladderStep
    rw [h _ (by omega)]
  unfold pointMul montgomeryLadder
  simp only [e]

end Hacspec.Leak.P256
